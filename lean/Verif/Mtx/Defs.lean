import Verif.Mtx.Feats
/-!
# Reading the definitions
-/
namespace Verif.Mtx
open Verif.VM (Ctx Cell Op Expr Stmt Str Val compile compileFeat operandCount slotsOf Fits)
open Verif.Tsx (Node Gap Start End isText mapFind mapSet mapFind_set)

section
variable {D : Scope} {κ : Bool} {M : List Expr}

theorem look_cons {α : Type} (n : Text) (a : α) (l : List (Text × α)) (m : Text) : look ((n, a) :: l) m = if n = m then some a else look l m := by
  by_cases h : n = m <;> simp [look, h]

theorem Pre.addStr {t : T} {E : List Expr} (h : Pre D κ M [] true t E) (n s : Text) :
    Pre (D.add (.str n s)) κ M [] true { t with strs := t.strs ++ [s], strNames := mapSet t.strNames n t.strs.length } E := by
  have h' := h.pushStr s
  refine { h' with str := ?_, var := fun v hv => by cases hv }
  intro m u hu
  simp only [Scope.add, look_cons] at hu
  simp only [mapFind_set]
  by_cases hm : n = m
  · subst hm
    simp only [if_true, Option.some.injEq] at hu
    subst hu
    exact ⟨t.strs.length, by simp, by simp⟩
  · rw [if_neg hm] at hu
    obtain ⟨i, h1, h2⟩ := h'.str m u hu
    exact ⟨i, by rw [if_neg (fun e => hm e.symm)]; exact h1, h2⟩

/-- What is before the expression of a macro. -/
def T.macroStart (t : T) (nm : Text) : T := { t with inMacro := true, slot := 0, repl := [], args := [], macroNames := mapSet t.macroNames nm t.macros.length }

theorem Pre.macroStart {t : T} (h : Pre D κ M [] true t []) (nm : Text) : Pre { strs := D.strs } κ [] [] true (t.macroStart nm) [] where
  str := h.str
  noMac hc := by cases hc
  mac n ty x hx := by cases hx
  glob := h.glob
  sub e he := by cases he
  inst z hz := by
    obtain ⟨i, g, e, _, _, h3⟩ := h.inst z hz
    simp at h3
  args _ := rfl
  var v hv := by cases hv
  kinds := h.kinds
  loops _ := Nat.zero_le _

/-- What is after it. -/
def T.macroEnd (t : T) (ty : Ty) (code : List Cell) : T := { t with inMacro := false, macros := t.macros ++ [⟨ty, code, t.repl⟩] }

theorem Pre.macroEnd {t t1 : T} (h : Pre D κ M [] true t []) (nm : Text) (hlen : t.macros.length = M.length) (h1 : Pre { strs := D.strs } κ [] [] true t1 [])
    (ht : Tab [] true (t.macroStart nm) t1 [] [] ns) {ty : Ty} (hty : ty ≠ .addr) (hty' : ty ≠ .void) {x : X} {e : Expr} (hm : Means t1.strs t1.sets [] (fun _ => none) x e) :
    Pre (D.add (.mac nm ty x)) κ (M ++ [e]) [] true (t1.macroEnd ty (compile e)) [] := by
  have hmn : t1.macroNames = mapSet t.macroNames nm t.macros.length := congrArg T.macroNames ht.static
  have hmc : t1.macros = t.macros := by have := congrArg T.macros ht.static; exact this
  have hrp : t1.repl = [] := congrArg T.repl ht.static
  have hgl : t1.globals = [] := h1.glob
  exact
  { str := h1.str
    noMac := fun _ => rfl
    mac := by
      intro n ty' x' hx
      simp only [Scope.add, look_cons] at hx
      by_cases hn : nm = n
      · subst hn
        simp only [if_true, Option.some.injEq, Prod.mk.injEq] at hx
        obtain ⟨rfl, rfl⟩ := hx
        refine ⟨hty, hty', t.macros.length, ⟨ty, compile e, []⟩, e, ?_, ?_, rfl, rfl, ?_, rfl, hm⟩
        · simp [T.macroEnd, hmn, mapFind_set]
        · simp [T.macroEnd, hmc, hrp]
        · simp [hlen]
      · rw [if_neg hn] at hx
        obtain ⟨a, b, i, m, d, h1, h2, h3, h4, h5, h6, h7⟩ := h.mac n ty' x' hx
        refine ⟨a, b, i, m, d, ?_, ?_, h3, h4, prefix_get (List.prefix_append _ _) h5, h6, h7.mono ht.strs ht.sets (List.prefix_refl _)⟩
        · simp only [T.macroEnd, hmn, mapFind_set]
          rw [if_neg (fun e => hn e.symm)]
          exact h1
        · simp only [T.macroEnd, hmc]
          exact prefix_get (List.prefix_append _ _) h2
    glob := hgl
    sub := fun e he => by cases he
    inst := fun z hz => by
      obtain ⟨i, g, e, _, _, h3⟩ := h1.inst z hz
      simp at h3
    args := fun h => by cases h
    var := fun v hv => by cases hv
    kinds := h1.kinds
    loops := h1.loops }

/-- The type of a macro is found out. -/
theorem macroBody_reads {D' : Scope} (hD : D'.calls = false) {ty : Ty} {x : X} {ns : List Node} {k : Nat} (hw : W D' κ [] true (.ty ty) x ns k) {y : Text} (hy : Heads y ns) (hmh : MacroHead ty y)
    {t t' : T} {e : Expr} (h : Reads (.ty ty) ns t e t') {a : Node} {r : List Node} (hns : ns = a :: r) (hat : isText a = false) {f : Nat} (hf : ns.length ≤ f) {g : List Node} (hg : Gap g)
    {m : Node} (hm : Stop m) (tl : List Node) (code : List Cell) :
    macroBody f [.int, .bool, .str, .strs, .wrds, .wrd] ⟨a, r ++ (g ++ m :: tl), code, t⟩ = .ok (⟨m, tl, code ++ compile e, t'⟩, ty) := by
  obtain ⟨a', r', h1, h2⟩ := hy
  rw [hns] at h1
  cases h1
  have hr := h f true g m tl code a r hns hf hg hm
  obtain ⟨f, rfl⟩ : ∃ f', f = f' + 1 := ⟨f - 1, by subst hns; simp at hf; omega⟩
  have hname : a.name ∈ elemsOf ty := by
    rcases hw.headName hns with h | ⟨_, h⟩ | ⟨_, h⟩
    · exact h
    · rw [hD] at h; cases h
    · exact absurd rfl h
  have rej (ty' : Ty) (h1 : ty' ≠ .addr) (h2 : ty' ≠ .void) (hv : a.name ≠ t!"var") (hmm : a.name ≠ t!"macro") (hn : a.name ∉ elemsOf ty') :
      proc (f + 1) ty' true ⟨a, r ++ (g ++ m :: tl), code, t⟩ = .ok (⟨a, r ++ (g ++ m :: tl), code, t⟩, false) := proc_other h1 h2 hat hv hmm hn _ _ _ _
  have nv : ∀ y ∈ elemsOf ty, y ≠ t!"var" ∧ y ≠ t!"macro" := by cases ty <;> decide
  obtain ⟨hv, hmm⟩ := nv _ hname
  subst h2
  cases ty with
  | void => exact absurd hmh id
  | addr => exact absurd hmh id
  | int => simp [macroBody, hr]
  | bool =>
    have d : ∀ y ∈ elemsOf .bool, y ∉ elemsOf .int := by decide
    simp [macroBody, hr, rej .int (by decide) (by decide) hv hmm (d _ hname)]
  | str =>
    have d : ∀ y ∈ elemsOf .str, y ∉ elemsOf .int ∧ y ∉ elemsOf .bool := by decide
    simp [macroBody, hr, rej .int (by decide) (by decide) hv hmm (d _ hname).1, rej .bool (by decide) (by decide) hv hmm (d _ hname).2]
  | strs =>
    have d : ∀ y ∈ elemsOf .strs, y ≠ t!"slice" → y ∉ elemsOf .int ∧ y ∉ elemsOf .bool ∧ y ∉ elemsOf .str := by decide
    obtain ⟨d1, d2, d3⟩ := d _ hname hmh
    simp [macroBody, hr, rej .int (by decide) (by decide) hv hmm d1, rej .bool (by decide) (by decide) hv hmm d2, rej .str (by decide) (by decide) hv hmm d3]
  | wrds =>
    have hmh : a.name = t!"ex-wordoids" := hmh
    simp [macroBody, hr, rej .int (by decide) (by decide) hv hmm (by rw [hmh]; decide), rej .bool (by decide) (by decide) hv hmm (by rw [hmh]; decide),
      rej .str (by decide) (by decide) hv hmm (by rw [hmh]; decide), rej .strs (by decide) (by decide) hv hmm (by rw [hmh]; decide)]
  | wrd =>
    have hmh : a.name = t!"ex-wordoid" := hmh
    simp [macroBody, hr, rej .int (by decide) (by decide) hv hmm (by rw [hmh]; decide), rej .bool (by decide) (by decide) hv hmm (by rw [hmh]; decide),
      rej .str (by decide) (by decide) hv hmm (by rw [hmh]; decide), rej .strs (by decide) (by decide) hv hmm (by rw [hmh]; decide),
      rej .wrds (by decide) (by decide) hv hmm (by rw [hmh]; decide)]

theorem macroHead_ty {ty : Ty} {y : Text} (h : MacroHead ty y) : ty ≠ .addr ∧ ty ≠ .void := by
  constructor <;> (rintro rfl; exact h)

/-- The first node of the definitions, with what comes after them. -/
theorem WDefs.first {ds : List Def} {ns : List Node} (h : WDefs κ D ds ns) {z : Node} (hz : Stop z) (tl : List Node) : ∃ b q, ns ++ z :: tl = b :: q ∧ Stop b := by
  cases h with
  | nil => exact ⟨z, tl, rfl, hz⟩
  | str n s ns g hb hg hr =>
    cases hb with
    | short m hs hp => exact ⟨m, _, rfl, Stop.start hs.2 (isText_name hs.1 (by decide) (by decide))⟩
    | long m e hs hp he => exact ⟨m, _, rfl, Stop.start hs.2 (isText_name hs.1 (by decide) (by decide))⟩
  | mac nm ty x n g g' e g'' hnm hs => exact ⟨n, _, rfl, Stop.start hs.2 (isText_name hs.1 (by decide) (by decide))⟩

theorem WDefs.read {ds : List Def} {ns : List Node} (h : WDefs κ D ds ns) : ∀ t M, Pre D κ M [] true t [] → t.inMacro = false → t.macros.length = M.length → Room t ns →
    ∃ M' t', Pre (ds.foldl Scope.add D) κ M' [] true t' [] ∧ t'.inMacro = false ∧ Grow t t' [] [] ns ∧ t'.features = t.features ∧ t'.globalPred = t.globalPred ∧
    t'.coarse = t.coarse ∧ (∀ e ∈ M', e ∈ M ∨ ∃ n ty x, Def.mac n ty x ∈ ds ∧ Means t'.strs t'.sets [] (fun _ => none) x e ∧ Fits e) ∧
    ∀ fuel F z tl code n r, Stop z → z.isEnd = true → ns ++ z :: tl = n :: r → ns.length ≤ fuel → ns.length < F →
      ∃ code', defnsLoop fuel F ⟨n, r, code, t⟩ = .ok ⟨z, tl, code', t'⟩ := by
  induction h with
  | nil =>
    intro t M hp hm hl hr
    refine ⟨M, t, hp, hm, Grow.refl _ _ _, rfl, rfl, rfl, fun e he => .inl he, ?_⟩
    intro fuel F z tl code n r hz hze hq hf hF
    cases hq
    obtain ⟨F, rfl⟩ : ∃ F', F = F' + 1 := ⟨F - 1, by omega⟩
    exact ⟨code, by simp [defnsLoop, hze]⟩
  | @str D ds ms nm s ns g hb hg hds ih =>
    intro t M hp hm hl hr
    obtain ⟨a, q, rfl⟩ : ∃ a q, ns = a :: q := by cases hb <;> exact ⟨_, _, rfl⟩
    obtain ⟨hs, hn, hv⟩ := hb.start
    have hone : tally strElems [a] = 1 := tally_start hs (by decide)
    have hw (xs : List Text) : tally xs [a] + tally xs ms ≤ tally xs (a :: q ++ g ++ ms) := by
      have h := tally_cons xs a (q ++ g ++ ms)
      simp only [tally_append] at h
      simp only [List.cons_append]
      omega
    have hg1 : Grow t { t with strs := t.strs ++ [s], strNames := mapSet t.strNames nm t.strs.length } [] [] [a] :=
      ⟨List.prefix_append _ _, List.prefix_refl _, List.prefix_refl _, by simp [hone], by simp, by simp, by simp⟩
    obtain ⟨M', t', h1, h2, h3, h4, h5, h6, h7, h8⟩ := ih _ M (hp.addStr nm s) hm hl (hr.after hg1.spent hw)
    refine ⟨M', t', h1, h2, hg1.trans h3 hw, h4, h5, h6, ?_, ?_⟩
    · intro e he
      rcases h7 e he with h | ⟨n, ty, x, h, h'⟩
      · exact .inl h
      · exact .inr ⟨n, ty, x, List.mem_cons_of_mem _ h, h'⟩
    · intro fuel F z tl code n r hz hze hq hf hF
      obtain ⟨b, q', hbq, hbs⟩ := hds.first hz tl
      simp only [List.cons_append, List.append_assoc, List.cons.injEq] at hq
      obtain ⟨rfl, rfl⟩ := hq
      obtain ⟨F, rfl⟩ : ∃ F', F = F' + 1 := ⟨F - 1, by omega⟩
      obtain ⟨code', hc⟩ := h8 fuel F z tl code b q' hz hze hbq (by simp at hf; omega) (by simp at hF; omega)
      refine ⟨code', ?_⟩
      have hval : (if a.attrib t!"tag" = [] then a.attrib t!"str" else a.attrib t!"tag") = s := by
        rcases hv with ⟨e1, e2⟩ | ⟨e1, e2⟩
        · rw [if_neg (by rw [e1]; exact e2), e1]
        · rw [if_pos e1, e2]
      have hpast := past_bare hb (by decide) hg hbs q' code { t with strs := t.strs ++ [s], strNames := mapSet t.strNames nm t.strs.length }
      rw [defnsLoop, hbq]
      simp only [hs.2, Bool.false_eq_true, if_false, hs.1]
      rw [if_neg (by decide), if_pos trivial, procStrDef]
      simp only [hval, hn, hpast, Outcome.bind_ok]
      exact hc
  | @mac D ds ms nm ty x ns k n g g' e g'' hnm hs has hargs hw hhead hg hg' he hg'' hds ih =>
    intro t M hp hm hl hr
    have htl (xs : List Text) : tally xs ns + tally xs ms ≤ tally xs (n :: (g ++ ns ++ g' ++ [e]) ++ g'' ++ ms) := by
      have h := tally_cons xs n (g ++ ns ++ g' ++ [e])
      simp only [tally_append] at h ⊢
      omega
    obtain ⟨d, t1, E1, hp1, ht1, hsem, hrd⟩ := hw.read (M := []) (t.macroStart nm) [] (hp.macroStart nm) (show Room t ns from hr.weaken (fun xs => by have := htl xs; omega))
    have hE : E1 = [] := by
      cases E1 with
      | nil => rfl
      | cons c cs => exact absurd (hp1.sub c (by simp)) (by simp)
    subst hE
    obtain ⟨y, hy, hmh⟩ := hhead
    obtain ⟨hty, hty'⟩ := macroHead_ty hmh
    have hmeans := hsem.closed
    have hp2 := hp.macroEnd nm hl hp1 ht1 hty hty' hmeans.1
    have hmc : t1.macros = t.macros := by have := congrArg T.macros ht1.static; exact this
    have hfe : t1.features = t.features := by have := congrArg T.features ht1.static; exact this
    have hgp : t1.globalPred = t.globalPred := by have := congrArg T.globalPred ht1.static; exact this
    have hco : t1.coarse = t.coarse := by have := congrArg T.coarse ht1.static; exact this
    have hg1 : Grow t (t1.macroEnd ty (compile d)) [] [] ns := ⟨ht1.strs, ht1.sets, List.prefix_refl _, ht1.spent⟩
    obtain ⟨M', t', h1, h2, h3, h4, h5, h6, h7, h8⟩ := ih _ (M ++ [d]) hp2 rfl (by simp [T.macroEnd, hmc, hl]) (hr.after hg1.spent htl)
    refine ⟨M', t', h1, h2, hg1.trans h3 htl, h4.trans hfe, h5.trans hgp, h6.trans hco, ?_, ?_⟩
    · intro c hc
      rcases h7 c hc with h | ⟨n, ty, x, h, h'⟩
      · simp only [List.mem_append, List.mem_singleton] at h
        rcases h with h | rfl
        · exact .inl h
        · exact .inr ⟨nm, ty, x, by simp, hmeans.1.mono h3.strs h3.sets (List.prefix_refl _), hmeans.2.1⟩
      · exact .inr ⟨n, ty, x, List.mem_cons_of_mem _ h, h'⟩
    · intro fuel F z tl code n' r hz hze hq hf hF
      obtain ⟨b, q', hbq, hbs⟩ := hds.first hz tl
      simp only [List.cons_append, List.append_assoc, List.cons.injEq] at hq
      obtain ⟨rfl, rfl⟩ := hq
      obtain ⟨F, rfl⟩ : ∃ F', F = F' + 1 := ⟨F - 1, by omega⟩
      obtain ⟨code', hc⟩ := h8 fuel F z tl (compile d) b q' hz hze hbq (by simp at hf; omega) (by simp at hF; omega)
      refine ⟨code', ?_⟩
      obtain ⟨a, q, hns, ha, hat⟩ := hw.head
      have hnt := isText_name hs.1 (show t!"def-macro" ≠ t!"#text" by decide) (by decide)
      have hzt := isText_name he.1 (show t!"def-macro" ≠ t!"#text" by decide) (by decide)
      have e1 : procDefMacro fuel ⟨n, g ++ (ns ++ (g' ++ e :: (g'' ++ b :: q'))), code, t⟩ = .ok ⟨b, q', compile d, t1.macroEnd ty (compile d)⟩ := by
        have hne : n.attrib t!"as" ≠ [] := by rw [has]; exact hnm
        have hnx := enter hnt hg hns hat (g' ++ e :: (g'' ++ b :: q')) [] (t.macroStart nm)
        rw [T.macroStart] at hnx
        simp only [procDefMacro, hne, if_false]
        rw [hargs, has]
        simp only [splitWords, List.zipIdx_nil, List.foldl_nil]
        rw [hnx]
        simp only [Outcome.bind_ok]
        have hmb := macroBody_reads rfl hw hy hmh hrd hns hat (f := fuel) (by simp at hf; omega) hg' (Stop.ending he (by decide) (by decide) (by decide)) (g'' ++ b :: q') []
        rw [T.macroStart] at hmb
        rw [hmb]
        simp only [Outcome.bind_ok, atEnd_end he, nextTag_gap hzt hg'' hbs.1, List.nil_append]
        rfl
      rw [defnsLoop]
      simp only [hs.2, Bool.false_eq_true, if_false, hs.1]
      rw [if_neg (by decide), if_neg (by decide), if_pos trivial]
      have e2 : g ++ (ns ++ (g' ++ ([e] ++ (g'' ++ (ms ++ z :: tl))))) = g ++ (ns ++ (g' ++ e :: (g'' ++ b :: q'))) := by rw [hbq]; rfl
      simp only [List.cons_append, List.nil_append] at e2 ⊢
      rw [e2, e1]
      simp only [Outcome.bind_ok]
      exact hc

end

end Verif.Mtx
