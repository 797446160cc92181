import Verif.Mtx.Defs
/-!
# Reading a file
-/
namespace Verif.Mtx
open Verif.VM (Ctx Cell Op Expr Stmt Str Val compile compileFeat operandCount slotsOf Fits)
open Verif.Tsx (Node Gap Start End isText mapFind mapSet mapFind_set)

section
variable {D : Scope} {κ : Bool} {M : List Expr}

/-! ### Sections that may be missing -/

theorem coarse_reads {c : Option Text} {ns : List Node} (h : WCoarse c ns) {b : Node} (hb : Stop b) (hbn : b.name ≠ t!"coarse-tags") (q : List Node) (path : Text) (code : List Cell) (t : T)
    (hc : t.coarse = none) : ∃ a r, ns ++ b :: q = a :: r ∧ Stop a ∧
      section? t!"coarse-tags" (procCoarseTags path) ⟨a, r, code, t⟩ = .ok ⟨b, q, code, { t with coarse := c.map (tsxPath path) }⟩ := by
  cases h with
  | none =>
    refine ⟨b, q, rfl, hb, ?_⟩
    have ht : { t with coarse := none } = t := by cases t; simp only at hc; subst hc; rfl
    simp only [section?, hbn, if_false, Option.map_none, ht]
  | some p ns g hbare hg =>
    obtain ⟨a, r, rfl⟩ : ∃ a r, ns = a :: r := by cases hbare <;> exact ⟨_, _, rfl⟩
    obtain ⟨hs, hp⟩ := hbare.start
    refine ⟨a, r ++ (g ++ b :: q), by simp, Stop.start hs.2 (isText_name hs.1 (by decide) (by decide)), ?_⟩
    simp only [section?, hs.1, if_true, procCoarseTags, hp]
    exact past_bare hbare (by decide) hg hb _ _ _

theorem feats_reads {fs : List Template} {ns : List Node} (h : WFeats D κ fs ns) {b : Node} (hb : Stop b) (hbn : b.name ≠ t!"feats") (q : List Node) (t : T) (E : List Expr)
    (hp : Pre D κ M [] true t E) (hr : Room t ns) :
    ∃ sss t' E' a r, Pre D κ M [] true t' E' ∧ Grow t t' E E' ns ∧ List.Forall₂ (List.Forall₂ (Same t'.strs t'.sets E')) fs sss ∧ t'.features = t.features ++ sss.map compileFeat ∧
      t'.globalPred = t.globalPred ∧ t'.coarse = t.coarse ∧ ns ++ b :: q = a :: r ∧ Stop a ∧ (a = b ∨ a.name = t!"feats") ∧
      ∀ fuel code, ns.length ≤ fuel → ∃ code', section? t!"feats" (procFeats fuel) ⟨a, r, code, t⟩ = .ok ⟨b, q, code', t'⟩ := by
  cases h with
  | none =>
    refine ⟨[], t, E, b, q, hp, Grow.refl _ _ _, .nil, by simp, rfl, rfl, rfl, hb, .inl rfl, fun fuel code _ => ⟨code, ?_⟩⟩
    simp only [section?, hbn, if_false]
  | some n g z g' hrow hs hg hz hg' =>
    rename_i ns
    have hw (xs : List Text) : tally xs ns ≤ tally xs (n :: (g ++ ns ++ [z]) ++ g') := by
      have h := tally_cons xs n (g ++ ns ++ [z])
      simp only [tally_append] at h ⊢
      omega
    obtain ⟨sss, t', E', h1, h2, h3, h4, h5, h6, h7⟩ := hrow.featsLoop (M := M) t E hp (hr.weaken hw)
    have hnt := isText_name hs.1 (show t!"feats" ≠ t!"#text" by decide) (by decide)
    have hzt := isText_name hz.1 (show t!"feats" ≠ t!"#text" by decide) (by decide)
    have hzs : Stop z := Stop.ending hz (by decide) (by decide) (by decide)
    refine ⟨sss, t', E', n, g ++ (ns ++ z :: (g' ++ b :: q)), h1, h2.weaken hw, h3, h4, h5, h6, by simp, Stop.start hs.2 hnt, .inr hs.1, ?_⟩
    intro fuel code hf
    obtain ⟨a, r, hq, ha, _⟩ := hrow.first (fun _ _ h => h.head) hzs (g' ++ b :: q)
    have hlen := congrArg List.length hq
    obtain ⟨code', hc⟩ := h7 fuel (r.length + 2) z (g' ++ b :: q) code a r hzs hz.2 hq (by simp at hf; omega) (by simp at hlen; omega)
    refine ⟨code', ?_⟩
    simp only [section?, hs.1, if_true, procFeats]
    rw [hq, nextTag_gap hnt hg ha.1]
    simp only [Outcome.bind_ok, hc, atEnd_end hz]
    exact nextTag_gap hzt hg' hb.1 _ _ _

theorem cond_reads {x : Option X} {ns : List Node} (h : WCond D κ x ns) {b : Node} (hb : Stop b) (hbn : b.name ≠ t!"global-pred") (q : List Node) (t : T) (E : List Expr)
    (hp : Pre D κ M [] true t E) (hr : Room t ns) (hg : t.globalPred = []) :
    ∃ t' E' a r, Pre D κ M [] true t' E' ∧ Grow t t' E E' ns ∧ static { t' with globalPred := [] } = static t ∧
      ((x = none ∧ t'.globalPred = []) ∨ ∃ y e, x = some y ∧ t'.globalPred = compile e ∧ Closed t'.strs t'.sets E' y e) ∧
      ns ++ b :: q = a :: r ∧ Stop a ∧ (a = b ∨ a.name = t!"global-pred") ∧
      ∀ fuel code, ns.length ≤ fuel → ∃ code', section? t!"global-pred" (procGlobalPred fuel) ⟨a, r, code, t⟩ = .ok ⟨b, q, code', t'⟩ := by
  cases h with
  | none =>
    refine ⟨t, E, b, q, hp, Grow.refl _ _ _, by rw [← hg], .inl ⟨rfl, hg⟩, rfl, hb, .inl rfl, fun fuel code _ => ⟨code, ?_⟩⟩
    simp only [section?, hbn, if_false]
  | some n g g' z g'' hw hs hg0 hg' hz hg'' =>
    rename_i x ns k
    have htl (xs : List Text) : tally xs ns ≤ tally xs (n :: (g ++ ns ++ g' ++ [z]) ++ g'') := by
      have h := tally_cons xs n (g ++ ns ++ g' ++ [z])
      simp only [tally_append] at h ⊢
      omega
    obtain ⟨e, t1, E1, hp1, ht1, hsem, hrd⟩ := hw.read (M := M) t E hp (hr.weaken htl)
    have hnt := isText_name hs.1 (show t!"global-pred" ≠ t!"#text" by decide) (by decide)
    have hzt := isText_name hz.1 (show t!"global-pred" ≠ t!"#text" by decide) (by decide)
    refine ⟨{ t1 with globalPred := compile e }, E1, n, g ++ (ns ++ (g' ++ z :: (g'' ++ b :: q))), { hp1 with }, ?_, ?_, .inr ⟨x, e, rfl, rfl, hsem.closed⟩, by simp, Stop.start hs.2 hnt, .inr hs.1, ?_⟩
    · obtain ⟨a, b, c, d⟩ := ht1.grow
      exact ⟨a, b, c, d.weaken htl⟩
    · have := ht1.static
      rw [← this]
      have h2 : t1.globalPred = [] := by have h := congrArg T.globalPred this; exact h.trans hg
      simp only [static, h2]
    · intro fuel code hf
      obtain ⟨a, r, hns, ha, hat⟩ := hw.head
      refine ⟨compile e, ?_⟩
      simp only [section?, hs.1, if_true, procGlobalPred]
      rw [enter hnt hg0 hns hat]
      simp only [Outcome.bind_ok]
      rw [hrd.call hns (by simp at hf; omega) hg' (Stop.ending hz (by decide) (by decide) (by decide))]
      simp only [Outcome.bind_ok, atEnd_end hz, List.nil_append]
      exact nextTag_gap hzt hg'' hb.1 _ _ _

theorem defns_reads {ds : List Def} {ns : List Node} (h : WDefns κ ds ns) {b : Node} (hb : Stop b) (hbn : b.name ≠ t!"defns") (q : List Node) (t : T)
    (hp : Pre {} κ [] [] true t []) (hm : t.inMacro = false) (hl : t.macros = []) (hr : Room t ns) :
    ∃ M' t' a r, Pre (ds.foldl Scope.add {}) κ M' [] true t' [] ∧ t'.inMacro = false ∧ Grow t t' [] [] ns ∧ t'.features = t.features ∧ t'.globalPred = t.globalPred ∧
      t'.coarse = t.coarse ∧ (∀ e ∈ M', ∃ n ty x, Def.mac n ty x ∈ ds ∧ Means t'.strs t'.sets [] (fun _ => none) x e ∧ Fits e) ∧
      ns ++ b :: q = a :: r ∧ Stop a ∧ (a = b ∨ a.name = t!"defns") ∧
      ∀ fuel code, ns.length ≤ fuel → ∃ code', section? t!"defns" (procDefns fuel) ⟨a, r, code, t⟩ = .ok ⟨b, q, code', t'⟩ := by
  cases h with
  | none =>
    refine ⟨[], t, b, q, hp, hm, Grow.refl _ _ _, rfl, rfl, rfl, (fun e he => by cases he), rfl, hb, .inl rfl, fun fuel code _ => ⟨code, ?_⟩⟩
    simp only [section?, hbn, if_false]
  | some n g z g' hds hs hg hz hg' =>
    rename_i ns
    have hw (xs : List Text) : tally xs ns ≤ tally xs (n :: (g ++ ns ++ [z]) ++ g') := by
      have h := tally_cons xs n (g ++ ns ++ [z])
      simp only [tally_append] at h ⊢
      omega
    obtain ⟨M', t', h1, h2, h3, h4, h5, h6, h7, h8⟩ := hds.read t [] hp hm (by rw [hl]; rfl) (hr.weaken hw)
    have hnt := isText_name hs.1 (show t!"defns" ≠ t!"#text" by decide) (by decide)
    have hzt := isText_name hz.1 (show t!"defns" ≠ t!"#text" by decide) (by decide)
    have hzs : Stop z := Stop.ending hz (by decide) (by decide) (by decide)
    refine ⟨M', t', n, g ++ (ns ++ z :: (g' ++ b :: q)), h1, h2, h3.weaken hw, h4, h5, h6, ?_, by simp, Stop.start hs.2 hnt, .inr hs.1, ?_⟩
    · intro e he
      rcases h7 e he with h | h
      · cases h
      · exact h
    · intro fuel code hf
      obtain ⟨a, r, hq, ha⟩ := hds.first hzs (g' ++ b :: q)
      have hlen := congrArg List.length hq
      obtain ⟨code', hc⟩ := h8 fuel (r.length + 2) z (g' ++ b :: q) code a r hzs hz.2 hq (by simp at hf; omega) (by simp at hlen; omega)
      refine ⟨code', ?_⟩
      simp only [section?, hs.1, if_true, procDefns]
      rw [hq, nextTag_gap hnt hg ha.1]
      simp only [Outcome.bind_ok, hc, atEnd_end hz]
      exact nextTag_gap hzt hg' hb.1 _ _ _

end

theorem WFeats.first {D : Scope} {κ : Bool} {fs : List Template} {ns : List Node} (h : WFeats D κ fs ns) {b : Node} (hb : Stop b) (q : List Node) :
    ∃ a r, ns ++ b :: q = a :: r ∧ Stop a ∧ (a = b ∨ a.name = t!"feats") := by
  cases h with
  | none => exact ⟨b, q, rfl, hb, .inl rfl⟩
  | some n g z g' hrow hs => exact ⟨n, _, rfl, Stop.start hs.2 (isText_name hs.1 (by decide) (by decide)), .inr hs.1⟩

theorem WCond.first {D : Scope} {κ : Bool} {x : Option X} {ns : List Node} (h : WCond D κ x ns) {b : Node} (hb : Stop b) (q : List Node) :
    ∃ a r, ns ++ b :: q = a :: r ∧ Stop a ∧ (a = b ∨ a.name = t!"global-pred") := by
  cases h with
  | none => exact ⟨b, q, rfl, hb, .inl rfl⟩
  | some n g g' z g'' hw hs => exact ⟨n, _, rfl, Stop.start hs.2 (isText_name hs.1 (by decide) (by decide)), .inr hs.1⟩

/-- After an expression without macros the macros are still there. -/
theorem Pre.restore {D D' : Scope} {κ : Bool} {M : List Expr} {t t' : T} (h : Pre D κ M [] true t []) (h' : Pre { strs := D.strs } κ [] [] true t' []) (hs : D'.strs = D.strs)
    (hm : D'.macros = D.macros) (hi : t'.inMacro = false) (h1 : t.strs <+: t'.strs) (h2 : t.sets <+: t'.sets) (h3 : t'.macroNames = t.macroNames) (h4 : t'.macros = t.macros) :
    Pre D' κ M [] true t' [] where
  str n s hn := h'.str n s (hs ▸ hn)
  noMac _ := hi
  mac n ty x hx := by
    obtain ⟨a, b, i, m, d, g1, g2, g3, g4, g5, g6, g7⟩ := h.mac n ty x (hm ▸ hx)
    exact ⟨a, b, i, m, d, h3 ▸ g1, h4 ▸ g2, g3, g4, g5, g6, g7.mono h1 h2 (List.prefix_refl _)⟩
  glob := h'.glob
  sub e he := by cases he
  inst z hz := by
    obtain ⟨i, g, e, _, _, h3⟩ := h'.inst z hz
    simp at h3
  args := h'.args
  var v hv := by cases hv
  kinds := h'.kinds
  loops := h'.loops

/-- Before an expression without macros. -/
theorem Pre.plain {D : Scope} {κ : Bool} {M : List Expr} {t : T} (h : Pre D κ M [] true t []) : Pre { strs := D.strs } κ [] [] true t [] where
  str := h.str
  noMac hc := by cases hc
  mac n ty x hx := by cases hx
  glob := h.glob
  sub e he := by cases he
  inst z hz := by
    obtain ⟨i, g, e, _, _, h3⟩ := h.inst z hz
    simp at h3
  args := h.args
  var v hv := by cases hv
  kinds := h.kinds
  loops := h.loops

/-- What the tables are after a file has been read. -/
structure Result (κ : Bool) (path : Text) (d : Doc) (t : T) (M E : List Expr) (sss : List (List Stmt)) : Prop where
  glob : t.globals = E.map compile
  sub : ∀ e ∈ E, e ∈ M
  macros : ∀ e ∈ M, ∃ n ty x, Def.mac n ty x ∈ d.defs ∧ Means t.strs t.sets [] (fun _ => none) x e ∧ Fits e
  feats : List.Forall₂ (List.Forall₂ (Same t.strs t.sets E)) d.feats sss
  features : t.features = sss.map compileFeat
  cond : (d.cond = none ∧ t.globalPred = []) ∨ ∃ y e, d.cond = some y ∧ t.globalPred = compile e ∧ Closed t.strs t.sets [] y e
  coarse : t.coarse = d.coarse.map (tsxPath path)

theorem Writes.read {κ : Bool} {d : Doc} {ns : List Node} (h : Writes κ d ns) (hs : Small ns) (path : Text) :
    ∃ t M E sss, parse path ns = .ok t ∧ Result κ path d t M E sss := by
  cases h with
  | @mk n1 n2 n3 n4 g n g' e tl hg hn hg' h1 h2 h3 h4 he =>
    have hes : Stop e := Stop.ending he (by decide) (by decide) (by decide)
    have hen : e.name = t!"metatag" := he.1
    have hw (xs : List Text) : tally xs n2 + (tally xs n3 + tally xs n4) ≤ tally xs (g ++ n :: (g' ++ n1 ++ n2 ++ n3 ++ n4 ++ [e]) ++ tl) := by
      have h := tally_cons xs n (g' ++ n1 ++ n2 ++ n3 ++ n4 ++ [e])
      simp only [tally_append] at h ⊢
      omega
    have hroom : Room ({ beam := 4, coarse := d.coarse.map (tsxPath path) } : T) (g ++ n :: (g' ++ n1 ++ n2 ++ n3 ++ n4 ++ [e]) ++ tl) := by
      obtain ⟨a, b, c, f⟩ := hs
      exact ⟨by simpa using a, by simpa using b, by simpa using c, by simpa using f⟩
    obtain ⟨nodes, hnodes⟩ : ∃ nodes, nodes = g ++ n :: (g' ++ n1 ++ n2 ++ n3 ++ n4 ++ [e]) ++ tl := ⟨_, rfl⟩
    have hlen : n2.length + n3.length + n4.length ≤ nodes.length + 2 := by subst hnodes; simp; omega
    have hp0 : Pre {} κ [] [] true ({ beam := 4, coarse := d.coarse.map (tsxPath path) } : T) [] := by
      refine ⟨?_, fun _ => rfl, ?_, rfl, ?_, ?_, ?_, ?_, ?_, fun _ => Nat.le_refl _⟩
      · intro n s h; cases h
      · intro n ty x h; cases h
      · intro e h; cases h
      · intro z h; cases h
      · intro h; cases h
      · intro v h; cases h
      · intro ty h; cases h
    obtain ⟨a4, r4, q4, s4, m4⟩ := h4.first hes tl
    have k4 : a4.name = t!"feats" ∨ a4.name = t!"metatag" := by
      rcases m4 with rfl | h
      · exact .inr hen
      · exact .inl h
    obtain ⟨a3, r3, q3, s3, m3⟩ := h3.first s4 r4
    have k3 : a3.name = t!"global-pred" ∨ a3.name = t!"feats" ∨ a3.name = t!"metatag" := by
      rcases m3 with rfl | h
      · exact .inr k4
      · exact .inl h
    obtain ⟨M, t1, a2, r2, p1, i1, g1, f1, gp1, c1, mm1, q2, s2, m2, rd1⟩ :=
      defns_reads h2 s3 (by rcases k3 with h | h | h <;> (rw [h]; decide)) r3 _ hp0 rfl rfl (hroom.weaken (fun xs => by have := hw xs; omega))
    have k2 : a2.name = t!"defns" ∨ a2.name = t!"global-pred" ∨ a2.name = t!"feats" ∨ a2.name = t!"metatag" := by
      rcases m2 with rfl | h
      · exact .inr k3
      · exact .inl h
    obtain ⟨a1, r1, q1, s1, rd0⟩ := coarse_reads h1 s2 (by rcases k2 with h | h | h | h <;> (rw [h]; decide)) r2 path [] {} rfl
    obtain ⟨t2, E2, a3', r3', p2, g2, st2, cond2, q3', _, _, rd2⟩ :=
      cond_reads h3 s4 (by rcases k4 with h | h <;> (rw [h]; decide)) r4 t1 [] (M := []) p1.plain (hroom.after g1.spent (fun xs => by have := hw xs; omega)) gp1
    rw [q3] at q3'
    cases q3'
    have hE2 : E2 = [] := by
      cases E2 with
      | nil => rfl
      | cons c cs => exact absurd (p2.sub c (by simp)) (by simp)
    subst hE2
    have i2 : t2.inMacro = false := by have h := congrArg T.inMacro st2; exact h.trans i1
    have f2 : t2.features = [] := by have h := congrArg T.features st2; exact h.trans f1
    have c2 : t2.coarse = d.coarse.map (tsxPath path) := by have h := congrArg T.coarse st2; exact h.trans c1
    have n2' : t2.macroNames = t1.macroNames := by have h := congrArg T.macroNames st2; exact h
    have l2 : t2.macros = t1.macros := by have h := congrArg T.macros st2; exact h
    have p2' : Pre { d.scope with calls := true } κ M [] true t2 [] := p1.restore p2 rfl rfl i2 g2.strs g2.sets n2' l2
    have sp2 := g1.spent.trans g2.spent (os := n2 ++ n3) (fun xs => by rw [tally_append])
    obtain ⟨sss, t3, E3, a4', r4', p3, g3, fa3, fe3, gp3, c3, q4', _, _, rd3⟩ :=
      feats_reads h4 hes (by rw [hen]; decide) tl t2 [] p2' (hroom.after sp2 (fun xs => by have := hw xs; rw [tally_append]; omega))
    rw [q4] at q4'
    cases q4'
    obtain ⟨code1, x1⟩ := rd1 (nodes.length + 2) [] (by omega)
    obtain ⟨code2, x2⟩ := rd2 (nodes.length + 2) code1 (by omega)
    obtain ⟨code3, x3⟩ := rd3 (nodes.length + 2) code2 (by omega)
    refine ⟨t3, M, E3, sss, ?_, p3.glob, p3.sub, ?_, fa3, by rw [fe3, f2]; rfl, ?_, c3.trans c2⟩
    · have hnt := isText_name hn.1 (show t!"metatag" ≠ t!"#text" by decide) (by decide)
      have e1 : g ++ n :: (g' ++ n1 ++ n2 ++ n3 ++ n4 ++ [e]) ++ tl = g ++ n :: (g' ++ a1 :: r1) := by
        rw [← q1, ← q2, ← q3, ← q4]; simp
      have hbw : beamWidth ⟨a2, r2, [], { coarse := d.coarse.map (tsxPath path) }⟩ = ⟨a2, r2, [], { beam := 4, coarse := d.coarse.map (tsxPath path) }⟩ := by
        rw [beamWidth]
        rw [if_neg (by rcases k2 with h | h | h | h <;> (rw [h]; decide))]
      rw [← hnodes] at *
      rw [parse]
      rw [show S.nextTag ⟨{ name := [] }, nodes, [], {}⟩ = .ok ⟨n, g' ++ a1 :: r1, [], {}⟩ from by rw [e1]; exact nextTag_gap (by decide) hg hnt _ _ _]
      simp only [Outcome.bind_ok, hn.1, ne_eq, not_true, if_false, nextTag_gap hnt hg' s1.1, rd0, hbw, x1, x2, x3, atEnd_end he]
      rfl
    · intro c hc
      obtain ⟨nm, ty, x, h1, h2, h3⟩ := mm1 c hc
      exact ⟨nm, ty, x, h1, h2.mono (g2.strs.trans g3.strs) (g2.sets.trans g3.sets) (List.prefix_refl _), h3⟩
    · rcases cond2 with ⟨h1, h2⟩ | ⟨y, c, h1, h2, h3⟩
      · exact .inl ⟨h1, gp3.trans h2⟩
      · exact .inr ⟨y, c, h1, gp3.trans h2, h3.mono g3.strs g3.sets (List.prefix_refl _)⟩

end Verif.Mtx
