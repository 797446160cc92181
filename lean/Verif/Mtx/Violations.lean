import Verif.Mtx.Props
import Verif.Percep.FeatureExamples
/-!
# C83: a file that is read, and files that are not read as they are written
-/
namespace Verif.Mtx
open Verif.VM (Ctx Val Op Cell Str Choice getFeatures elems)
open Verif.Tsx (Node Gap Start End isText)

/-! ### Writing nodes -/

def sp : List Node := [⟨t!"#text", false, []⟩]

/-- An element with content. -/
def el (x : Text) (a : List (Text × Text)) (b : List Node) : List Node := ⟨x, false, a⟩ :: (sp ++ b ++ sp ++ [⟨x, true, a⟩])

/-- An empty element. -/
def em (x : Text) (a : List (Text × Text) := []) : List Node := [⟨x, false, a⟩]

/-! ### A file -/

def exPrev : X := .un .lem (.un .wordoid (.un .adjust (.bin .addAddr (.leaf .wrdaddr) (.bin .ints (.int (-1)) (.int 0)))))

/-- The macro `prev` is the lemma of the word before.  Two templates: the surface form, if the word before is "the"; the lemma of the word before, and those of the first word. -/
def exDoc : Doc :=
  { coarse := some t!"a.tsx"
    defs := [.str t!"s" t!"the", .mac t!"prev" .str exPrev]
    cond := some (.bin (.cmp .neq) (.leaf .sentlen) (.int 0))
    feats := [[.pred (.and (.seq (.streq t!"the" exPrev) (.set .strin [t!"a", t!"dogs"] (.un .surf (.leaf .tokaddr))))), .outStr (.un .surf (.leaf .tokaddr))],
      [.outStr exPrev, .outMany (.forEach false t!"w" (.un .wordoids (.int 0)) (.un .lem (.var t!"w")))]] }

def exNum (v : Text) : List Node := em t!"int" [(t!"val", v)]

def exPrevNodes : List Node := el t!"ex-lemma" [] (el t!"ex-wordoid" [] (el t!"adjust" [] (⟨t!"add", false, []⟩ :: (sp ++ em t!"wrdaddr" ++ sp ++
  (⟨t!"addr-of-ints", false, []⟩ :: (sp ++ exNum t!"-1" ++ sp ++ exNum t!"0" ++ sp ++ [⟨t!"addr-of-ints", true, []⟩])) ++ sp ++ [⟨t!"add", true, []⟩]))))

def exCall : List Node := [⟨t!"macro", false, [(t!"name", t!"prev")]⟩] ++ (sp ++ [⟨t!"macro", true, []⟩])

def exSurf : List Node := el t!"ex-surf" [] (em t!"tokaddr")

def exDefs : List Node := em t!"def-str" [(t!"name", t!"s"), (t!"str", t!"the")] ++ sp ++ (el t!"def-macro" [(t!"as", t!"prev")] exPrevNodes ++ sp ++ [])

def exCond : List Node := ⟨t!"neq", false, []⟩ :: (sp ++ em t!"sentlen" ++ sp ++ exNum t!"0" ++ sp ++ [⟨t!"neq", true, []⟩])

def exFeat1 : List Node := ⟨t!"feat", false, []⟩ :: (sp ++ (el t!"pred" [] (el t!"and" [] (el t!"streq" [(t!"name", t!"s")] exCall ++ sp ++ el t!"strin" [(t!"val", t!"a dogs")] exSurf)) ++ sp ++
  (el t!"out" [] exSurf ++ sp ++ [])) ++ [⟨t!"feat", true, []⟩])

def exFeat2 : List Node := ⟨t!"feat", false, []⟩ :: (sp ++ (el t!"out" [] exCall ++ sp ++
  (el t!"out-many" [] (⟨t!"for-each", false, [(t!"as", t!"w")]⟩ :: (sp ++ el t!"ex-wordoids" [] (exNum t!"0") ++ sp ++
    el t!"ex-lemma" [] (em t!"var" [(t!"name", t!"w")]) ++ sp ++ [⟨t!"for-each", true, []⟩])) ++ sp ++ [])) ++ [⟨t!"feat", true, []⟩])

def exNodes : List Node := sp ++ ⟨t!"metatag", false, []⟩ :: (sp ++ (em t!"coarse-tags" [(t!"tag", t!"a.tsx")] ++ sp) ++ (⟨t!"defns", false, []⟩ :: (sp ++ exDefs ++ [⟨t!"defns", true, []⟩]) ++ sp) ++
  (el t!"global-pred" [] exCond ++ sp) ++ (⟨t!"feats", false, []⟩ :: (sp ++ (exFeat1 ++ sp ++ (exFeat2 ++ sp ++ [])) ++ [⟨t!"feats", true, []⟩]) ++ sp) ++ [⟨t!"metatag", true, []⟩]) ++ sp

theorem gap_sp : Gap sp := by intro n hn; simp only [sp, List.mem_singleton] at hn; subst hn; decide

theorem lit_m1 : IntLit t!"-1" (-1) := ⟨t!"1", 1, ⟨by decide, by decide, by decide +kernel⟩, .inr ⟨rfl, rfl⟩⟩
theorem lit_0 : IntLit t!"0" 0 := ⟨t!"0", 0, ⟨by decide, by decide, by decide +kernel⟩, .inl ⟨rfl, rfl⟩⟩

theorem ex_prev (D : Scope) (κ : Bool) (Γ : List Text) (lp : Bool) : ∃ k, W D κ Γ lp (.ty .str) exPrev exPrevNodes k :=
  ⟨_, .un .lem _ sp sp _ (.un .wordoid _ sp sp _ (.un .adjust _ sp sp _ (.bin .addAddr _ sp sp sp _ (.leaf .wrdaddr _ (.short _ ⟨rfl, rfl⟩ trivial))
    (.bin .ints _ sp sp sp _ (.int (-1) _ (.short _ ⟨rfl, rfl⟩ lit_m1) (by decide) (by decide)) (.int 0 _ (.short _ ⟨rfl, rfl⟩ lit_0) (by decide) (by decide))
      ⟨rfl, rfl⟩ gap_sp gap_sp gap_sp ⟨rfl, rfl⟩)
    ⟨rfl, rfl⟩ gap_sp gap_sp gap_sp ⟨rfl, rfl⟩) ⟨rfl, rfl⟩ gap_sp gap_sp ⟨rfl, rfl⟩) ⟨rfl, rfl⟩ gap_sp gap_sp ⟨rfl, rfl⟩) ⟨rfl, rfl⟩ gap_sp gap_sp ⟨rfl, rfl⟩⟩

theorem ex_surf (D : Scope) (κ : Bool) (Γ : List Text) (lp : Bool) : ∃ k, W D κ Γ lp (.ty .str) (.un .surf (.leaf .tokaddr)) exSurf k :=
  ⟨_, .un .surf _ sp sp _ (.leaf .tokaddr _ (.short _ ⟨rfl, rfl⟩ trivial)) ⟨rfl, rfl⟩ gap_sp gap_sp ⟨rfl, rfl⟩⟩

theorem ex_call (Γ : List Text) (lp : Bool) : W { exDoc.scope with calls := true } true Γ lp (.ty .str) exPrev exCall 2 :=
  .call t!"prev" .str exPrev _ sp _ rfl (by decide +kernel) ⟨rfl, rfl⟩ (by decide) gap_sp ⟨rfl, rfl⟩

theorem ex_words : Words [t!"a", t!"dogs"] t!"a dogs" :=
  .cons [] t!"a" t!" dogs" _ (by decide) (by decide) (by decide) (.inr ⟨' ', t!"dogs", rfl, by decide⟩)
    (.cons t!" " t!"dogs" [] _ (by decide) (by decide) (by decide) (.inl rfl) (.nil [] (by decide)))

theorem exWritten : Writes true exDoc exNodes := by
  obtain ⟨_, hp⟩ := ex_prev { strs := [(t!"s", t!"the")] } true [] true
  obtain ⟨_, hs1⟩ := ex_surf { exDoc.scope with calls := true } true [] true
  refine .mk sp _ sp _ sp gap_sp ⟨rfl, rfl⟩ gap_sp (.some _ _ sp (.short _ ⟨rfl, rfl⟩ (by decide)) gap_sp) ?_ ?_ ?_ ⟨rfl, rfl⟩
  · refine .some _ sp _ sp ?_ ⟨rfl, rfl⟩ gap_sp ⟨rfl, rfl⟩ gap_sp
    refine .str _ _ _ sp (.short _ ⟨rfl, rfl⟩ (by decide)) gap_sp ?_
    exact .mac _ _ _ _ sp sp _ sp (by decide) ⟨rfl, rfl⟩ (by decide) (by decide) hp ⟨_, ⟨_, _, rfl, rfl⟩, trivial⟩ gap_sp gap_sp ⟨rfl, rfl⟩ gap_sp .nil
  · exact .some _ sp sp _ sp (.bin (.cmp .neq) _ sp sp sp _ (.leaf .sentlen _ (.short _ ⟨rfl, rfl⟩ trivial)) (.int 0 _ (.short _ ⟨rfl, rfl⟩ lit_0) (by decide) (by decide))
      ⟨rfl, rfl⟩ gap_sp gap_sp gap_sp ⟨rfl, rfl⟩) ⟨rfl, rfl⟩ gap_sp gap_sp ⟨rfl, rfl⟩ gap_sp
  · refine .some _ sp _ sp ?_ ⟨rfl, rfl⟩ gap_sp ⟨rfl, rfl⟩ gap_sp
    refine .cons sp (.mk _ sp _ ?_ ⟨rfl, rfl⟩ gap_sp ⟨rfl, rfl⟩) gap_sp (.cons sp (.mk _ sp _ ?_ ⟨rfl, rfl⟩ gap_sp ⟨rfl, rfl⟩) gap_sp .nil)
    · have h1 : W { exDoc.scope with calls := true } true [] true (.ty .bool) (.streq t!"the" exPrev) (el t!"streq" [(t!"name", t!"s")] exCall) 4 :=
        .streq _ _ sp sp _ (ex_call _ _) ⟨rfl, rfl⟩ (.inr ⟨by decide, by decide +kernel⟩) gap_sp gap_sp ⟨rfl, rfl⟩
      have h2 := W.set (D := { exDoc.scope with calls := true }) .strin [t!"a", t!"dogs"] ⟨t!"strin", false, [(t!"val", t!"a dogs")]⟩ sp sp ⟨t!"strin", true, [(t!"val", t!"a dogs")]⟩
        hs1 ⟨rfl, rfl⟩ (by decide) (by decide) ex_words gap_sp gap_sp ⟨rfl, rfl⟩
      refine .cons sp (.pred _ sp sp _ (.and _ sp sp _ (.more sp h1 gap_sp (.one h2)) ⟨rfl, rfl⟩ gap_sp gap_sp ⟨rfl, rfl⟩) ⟨rfl, rfl⟩ gap_sp gap_sp ⟨rfl, rfl⟩) gap_sp
        (.cons sp (.outStr _ sp sp _ hs1 ⟨rfl, rfl⟩ gap_sp gap_sp ⟨rfl, rfl⟩) gap_sp .nil)
    · have h1 : W { exDoc.scope with calls := true } true [] true (.ty (listTy false)) (.forEach false t!"w" (.un .wordoids (.int 0)) (.un .lem (.var t!"w"))) _ _ :=
        .forEach (l := 3) false _ ⟨t!"for-each", false, [(t!"as", t!"w")]⟩ sp sp sp ⟨t!"for-each", true, []⟩ (by decide) (by decide)
          (.un .wordoids ⟨t!"ex-wordoids", false, []⟩ sp sp ⟨t!"ex-wordoids", true, []⟩ (.int 0 _ (.short ⟨t!"int", false, [(t!"val", t!"0")]⟩ ⟨rfl, rfl⟩ lit_0) (by decide) (by decide))
            ⟨rfl, rfl⟩ gap_sp gap_sp ⟨rfl, rfl⟩) (fun _ => ⟨_, _, rfl, rfl⟩)
          (.un .lem ⟨t!"ex-lemma", false, []⟩ sp sp ⟨t!"ex-lemma", true, []⟩ (.var _ _ (by decide) (.short ⟨t!"var", false, [(t!"name", t!"w")]⟩ ⟨rfl, rfl⟩ (by decide)))
            ⟨rfl, rfl⟩ gap_sp gap_sp ⟨rfl, rfl⟩) (by decide) ⟨rfl, rfl⟩ (by decide) gap_sp gap_sp gap_sp ⟨rfl, rfl⟩
      exact .cons sp (.outStr _ sp sp _ (ex_call _ _) ⟨rfl, rfl⟩ gap_sp gap_sp ⟨rfl, rfl⟩) gap_sp (.cons sp (.outMany _ sp sp _ h1 ⟨rfl, rfl⟩ gap_sp gap_sp ⟨rfl, rfl⟩) gap_sp .nil)

theorem exSmall : Small exNodes := by
  refine ⟨?_, ?_, ?_, ?_⟩ <;> decide +kernel

/-- The second word of "the dogs". -/
def exHere : Ctx := { VM.exCtx with strConsts := [t!"the".map Char.toNat], setConsts := [[t!"a".map Char.toNat, t!"dogs".map Char.toNat]] }

theorem ex_columns : exDoc.feats.map (xcolumns exHere) =
    [some (some [[t!"dogs".map Char.toNat]]), some (some [[t!"the".map Char.toNat], [t!"the".map Char.toNat]])] := by decide +kernel

theorem ex_tables : (match parse t!"m/x.mtx" exNodes with | .ok t => some (t.strs, t.sets, t.coarse) | _ => none) = some ([t!"the"], [[t!"a", t!"dogs"]], some t!"m/a.tsx") := by decide +kernel

/-- The file of the example has the features that it says. -/
example : ∃ t n ks, parse t!"m/x.mtx" exNodes = .ok t ∧ t.coarse = some t!"m/a.tsx" ∧ (∀ fuel, n ≤ fuel → getFeatures exHere fuel ⟨t.globalPred, t.globals, t.features⟩ = .ok ks) ∧
    ∀ k, k ∈ ks ↔ ∃ j f cols xs, exDoc.feats[j]? = some f ∧ xcolumns exHere f = some (some cols) ∧ Choice xs cols ∧ k = [j % 256] :: xs := by
  obtain ⟨t, hp, _, _, h⟩ := C83_read_partial true exDoc exNodes exWritten exSmall t!"m/x.mtx"
  have ht := ex_tables
  rw [hp] at ht
  simp only [Option.some.injEq, Prod.mk.injEq] at ht
  obtain ⟨h1, h2, h3⟩ := ht
  have hv : ∃ v, xmeaning exHere exPrev noNames = some [v] := ⟨.str (t!"the".map Char.toNat), by decide +kernel⟩
  have hw : xmeaning exHere (.un .wordoids (.int 0)) noNames = some [.wrds [⟨t!"the", [t!"det"]⟩]] := by decide +kernel
  have hcl : XClean exHere exPrev noNames := by
    refine ⟨trivial, ⟨trivial, trivial, ?_⟩, ?_⟩ <;> (intro o h; cases h)
  obtain ⟨n, ks, r1, r2⟩ := h exHere (by rw [h1]; rfl) (by rw [h2]; rfl)
    (by
      intro n ty x hx
      simp only [exDoc, List.mem_cons, List.not_mem_nil, or_false, reduceCtorEq, false_or, Def.mac.injEq] at hx
      obtain ⟨_, _, rfl⟩ := hx
      exact ⟨hcl, hv⟩)
    (by
      intro f hf
      have hc := List.mem_map_of_mem (f := xcolumns exHere) hf
      rw [ex_columns] at hc
      refine ⟨?_, by rintro h; rw [h] at hc; simp at hc⟩
      simp only [exDoc, List.mem_cons, List.not_mem_nil, or_false] at hf
      rcases hf with rfl | rfl
      · exact ⟨⟨hcl, trivial⟩, fun _ => ⟨trivial, fun _ => trivial⟩⟩
      · refine ⟨hcl, fun _ => ⟨⟨trivial, fun l xs hl hx => ?_⟩, fun _ => trivial⟩⟩
        rw [hw] at hl
        simp only [Option.some.injEq, List.cons.injEq, and_true] at hl
        subst hl
        simp only [elems, Option.some.injEq] at hx
        subst hx
        exact ⟨by simp, fun _ _ => trivial⟩)
    true (fun _ => rfl)
    (by
      intro y hy
      simp only [exDoc, Option.some.injEq] at hy
      subst hy
      exact ⟨⟨trivial, trivial, by intro o h; cases h; exact .inr (.inl rfl)⟩, by decide +kernel⟩)
  exact ⟨t, n, ks, hp, h3, r1, fun k => by rw [r2 k]; simp⟩

/-! ### Violations -/

/-- A file with these definitions and templates. -/
def file (defs feats : List Node) : List Node := el t!"metatag" [] (el t!"defns" [] defs ++ sp ++ el t!"feats" [] feats)

def feat (b : List Node) : List Node := el t!"feat" [] b

def var (v : Text) : List Node := em t!"var" [(t!"name", v)]

/-- C83 fails: a file with a `beam-width` is never accepted. -/
theorem C83_beam_violation (path : Text) (g : List Node) (n : Node) (g' : List Node) (b : Node) (r : List Node) (hg : Gap g) (hn : Start t!"metatag" n) (hg' : Gap g')
    (hb : Start t!"beam-width" b) : parse path (g ++ n :: (g' ++ b :: r)) = .fail := by
  have hnt := isText_name hn.1 (show t!"metatag" ≠ t!"#text" by decide) (by decide)
  have hbt := isText_name hb.1 (show t!"beam-width" ≠ t!"#text" by decide) (by decide)
  rw [parse, show S.nextTag ⟨{ name := [] }, g ++ n :: (g' ++ b :: r), [], {}⟩ = .ok ⟨n, g' ++ b :: r, [], {}⟩ from nextTag_gap (by decide) hg hnt _ _ _]
  simp only [Outcome.bind_ok, hn.1, ne_eq, not_true, if_false, nextTag_gap hnt hg' hbt]
  have e (x : Text) (f : S → Outcome S) (hx : t!"beam-width" ≠ x) (s : S) (hs : s.cur = b) : section? x f s = .ok s := by
    rw [section?, hs, hb.1, if_neg hx]
  rw [e _ _ (by decide) _ rfl]
  simp only [Outcome.bind_ok]
  rw [e _ _ (by decide) _ rfl]
  simp only [Outcome.bind_ok]
  rw [e _ _ (by decide) _ rfl]
  simp only [Outcome.bind_ok]
  rw [e _ _ (by decide) _ rfl]
  simp only [Outcome.bind_ok, S.atEnd, beamWidth, hb.2]
  rw [if_neg (by simp)]
  rfl

/-- C83 fails: a set with members is not accepted. -/
theorem C83_set_violation : parse [] (file (el t!"def-set" [(t!"name", t!"s")] (em t!"set-member" [(t!"tag", t!"n")])) []) = .fail := by decide +kernel

/-- C83 fails: a `for-each` among the instructions is not accepted. -/
theorem C83_loop_violation : parse [] (file [] (feat (el t!"for-each" [(t!"as", t!"w")] (el t!"ex-wordoids" [] (em t!"tokaddr") ++ sp ++
    el t!"out" [] (el t!"ex-lemma" [] (var t!"w")))))) = .fail := by decide +kernel

/-- C83 fails: `strlen` and `arrlen` are not accepted. -/
theorem C83_strlen_violation : parse [] (file [] (feat (el t!"out" [] (el t!"strlen" [] exSurf)))) = .fail ∧
    parse [] (file [] (feat (el t!"out" [] (el t!"arrlen" [] (el t!"ex-ambgset" [] (em t!"tokaddr")))))) = .fail := by decide +kernel

/-- C83 fails: `toklen` is read again and again: the reader calls itself without end. -/
theorem C83_toklen_violation (fuel : Nat) (af : Bool) (s : S) (h : s.cur.name = t!"toklen") : proc fuel .int af s = .diverge := by
  induction fuel generalizing af with
  | zero => rfl
  | succ f ih =>
    have h1 : tryArg .int true s = .ok none := by rw [tryArg, if_neg (by rw [h]; simp)]
    have h2 : tryVar (proc f) .int s = .ok none := by rw [tryVar, if_neg (by rw [h]; decide), if_neg (by rw [h]; simp)]
    simp only [proc, procInt, orElse, h1, h2, Outcome.bind_ok]
    simp only [h]
    show done (call (proc f) .int s) = .diverge
    rw [call, ih]
    rfl

/-- C83 fails: an `inst` without operand is written again and again. -/
theorem C83_inst_violation (fuel n : Nat) (s : S) (h : Start t!"inst" s.cur) (h1 : s.cur.attrib t!"name" = []) (h2 : s.cur.attrib t!"val" = []) : featLoop (fuel + 1) n s = .diverge := by
  induction n generalizing s with
  | zero => rfl
  | succ n ih =>
    have ht := isText_name h.1 (show t!"inst" ≠ t!"#text" by decide) (by decide)
    have hc : call (proc (fuel + 1)) .void s = .ok (s.emit [.arg 0]) := by
      rw [call, proc, procVoid, toTag_tag ht]
      simp only [Outcome.bind_ok, h.1]
      show (done (procInst s)).map _ = _
      rw [procInst, if_neg (by simp [h1, h2])]
      rfl
    rw [featLoop, if_neg (by simp [h.2]), hc]
    exact ih (s.emit [.arg 0]) h h1 h2

/-- C83 fails: an argument of a macro is not put where it is used: `1 < a`, called with 5, becomes `5 < 1`. -/
theorem C83_argument_violation :
    (match parse [] (file (el t!"def-macro" [(t!"as", t!"f"), (t!"args", t!"a")] (el t!"lt" [] (exNum t!"1" ++ sp ++ var t!"a")))
        (feat (el t!"pred" [] (el t!"macro" [(t!"name", t!"f")] (exNum t!"5"))))) with
      | .ok t => some (t.globals, t.features)
      | _ => none) =
    some ([VM.compile (.cmp .lt (.lit 5) (.lit 1))], [VM.compileFeat [.pred (.gvar 0)]]) := by decide +kernel

/-- C83 fails: with two arguments the code is not that of an expression: `a + b` becomes `1 + 2` with the addition before the 2. -/
theorem C83_arguments_violation :
    (match parse [] (file (el t!"def-macro" [(t!"as", t!"f"), (t!"args", t!"a b")] (el t!"add" [] (var t!"a" ++ sp ++ var t!"b")))
        (feat (el t!"pred" [] (el t!"eq" [] (el t!"macro" [(t!"name", t!"f")] (exNum t!"1" ++ sp ++ exNum t!"2") ++ sp ++ exNum t!"3"))))) with
      | .ok t => some t.globals
      | _ => none) =
    some [[.op .pushint, .arg 1, .op .add, .op .pushint, .arg 2]] := by decide +kernel

/-- A macro for the surface form, one for the number of the token. -/
def surfMacro : List Node := el t!"def-macro" [(t!"as", t!"f")] exSurf
def intMacro : List Node := el t!"def-macro" [(t!"as", t!"f")] (em t!"tokaddr")

/-- C83 fails: a call of a macro written `<macro/>` is not accepted, though `<macro></macro>` is. -/
theorem C83_call_violation : parse [] (file surfMacro (feat (el t!"out" [] (em t!"macro" [(t!"name", t!"f")])))) = .fail ∧
    (match parse [] (file surfMacro (feat (el t!"out" [] (el t!"macro" [(t!"name", t!"f")] [])))) with | .ok _ => true | _ => false) = true := by decide +kernel

/-- C83 fails: a macro that is a number cannot be put out, though the number can. -/
theorem C83_out_violation : parse [] (file intMacro (feat (el t!"out" [] (el t!"macro" [(t!"name", t!"f")] [])))) = .fail ∧
    (match parse [] (file intMacro (feat (el t!"out" [] (em t!"tokaddr")))) with | .ok _ => true | _ => false) = true := by decide +kernel

/-- A template that puts out the lemmas, one that puts out the coarse tags. -/
def wordFeat : List Node := feat (el t!"out-many" [] (el t!"for-each" [(t!"as", t!"w")] (el t!"ex-wordoids" [] (em t!"tokaddr") ++ sp ++ el t!"ex-lemma" [] (var t!"w"))))
def tagFeat : List Node := feat (el t!"out-many" [] (el t!"for-each" [(t!"as", t!"s")] (el t!"ex-ambgset" [] (em t!"tokaddr") ++ sp ++ var t!"s")))

/-- C83 fails: two templates, each accepted alone, are not accepted together, in any order: the types of variables are kept from one template to the next. -/
theorem C83_slots_violation : (match parse [] (file [] wordFeat), parse [] (file [] tagFeat) with | .ok _, .ok _ => true | _, _ => false) = true ∧
    parse [] (file [] (wordFeat ++ tagFeat)) = .fail ∧ parse [] (file [] (tagFeat ++ wordFeat)) = .fail := by decide +kernel

/-- C83 fails: a macro that is part of a list is not accepted. -/
theorem C83_slice_violation : parse [] (file (el t!"def-macro" [(t!"as", t!"f")] (el t!"slice" [] (el t!"ex-ambgset" [] (em t!"tokaddr")))) []) = .fail := by decide +kernel

/-- C83 fails: a number that is not one is 0. -/
theorem C83_number_violation : (match parse [] (file [] (feat (el t!"out" [] (exNum t!"x")))) with | .ok t => some t.features | _ => none) =
    some [VM.compileFeat [.outInt (.lit 0)]] := by decide +kernel

/-- C83 fails: a variable in the list of its own loop is undefined behaviour. -/
theorem C83_scope_violation : parse [] (file [] (feat (el t!"out-many" [] (el t!"for-each" [(t!"as", t!"w")] (var t!"w" ++ sp ++ var t!"w"))))) = .ub := by decide +kernel

/-- C83 fails: a condition for all features may call a macro, which then has no value (`VM.C58_violation_global`). -/
theorem C83_condition_violation : (match parse [] (el t!"metatag" [] (el t!"defns" [] (el t!"def-macro" [(t!"as", t!"f")] exCond) ++ sp ++
      el t!"global-pred" [] (el t!"macro" [(t!"name", t!"f")] []))) with | .ok t => some (t.globalPred, t.globals) | _ => none) =
    some (VM.compile (.gvar 0), [VM.compile (.cmp .neq .sentlen (.lit 0))]) := by decide +kernel

end Verif.Mtx
