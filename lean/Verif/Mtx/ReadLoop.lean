import Verif.Mtx.ReadProps
/-!
# Reading an expression: `for-each` and macros
-/
namespace Verif.Mtx
open Verif.VM (Cell Op Expr compile operandCount slotsOf Fits intByte)
open Verif.Tsx (Node Gap Start End isText mapFind mapSet mapFind_set)

section
variable {D : Scope} {κ : Bool} {M : List Expr} {Γ : List Text} {lp : Bool} {t : T} {E : List Expr}

/-- The variable of a `for-each` gets its slot. -/
def T.bindVar (t : T) (v : Text) : T := { t with slot := t.slot + 1, slotNames := mapSet t.slotNames v t.slot }

def T.pushType (t : T) (ty : Ty) : T := { t with slotTypes := t.slotTypes ++ [ty] }

theorem Pre.bindVar (h : Pre D κ M Γ lp t E) {v : Text} (hv : v ∉ Γ) : Pre D κ M Γ false (t.bindVar v) E where
  str := h.str
  noMac := h.noMac
  mac := h.mac
  glob := h.glob
  sub := h.sub
  inst := h.inst
  args := h.args
  var u hu := by
    obtain ⟨k, h1, h2, h3⟩ := h.var u hu
    have hne : u ≠ v := by rintro rfl; exact hv hu
    exact ⟨k, by simp [T.bindVar, mapFind_set, hne, h1], by simp only [T.bindVar]; omega, h3⟩
  kinds := h.kinds
  loops hl := by cases hl

theorem Pre.pushType (h : Pre D κ M Γ false t E) {v : Text} {k : Nat} (hk : mapFind t.slotNames v = some k) (h1 : t.slot = k + 1) (h2 : k ≤ t.slotTypes.length) :
    Pre D κ M (v :: Γ) true (t.pushType (elemTy κ)) E where
  str := h.str
  noMac := h.noMac
  mac := h.mac
  glob := h.glob
  sub := h.sub
  inst := h.inst
  args := h.args
  var u hu := by
    simp only [List.mem_cons] at hu
    rcases hu with rfl | hu
    · exact ⟨k, hk, by simp only [T.pushType]; omega, by simp [T.pushType]; omega⟩
    · obtain ⟨j, a, b, c⟩ := h.var u hu
      exact ⟨j, a, b, by simp [T.pushType]; omega⟩
  kinds ty hty := by
    simp only [T.pushType, List.mem_append, List.mem_singleton] at hty
    rcases hty with hty | rfl
    · exact h.kinds ty hty
    · rfl
  loops _ := by simp [T.pushType]; omega

theorem Pre.leave {v : Text} (h : Pre D κ M (v :: Γ) true t E) : Pre D κ M Γ true t E := { h with var := fun u hu => h.var u (List.mem_cons_of_mem _ hu) }

theorem forList_reads {ns : List Node} {t t' : T} {e : Expr} (h : Reads (.ty (listTy κ)) ns t e t') (hk : κ = true → Heads t!"ex-wordoids" ns) {a : Node} {r : List Node}
    (hns : ns = a :: r) (ha : isText a = false) {f : Nat} (hf : ns.length ≤ f) {g : List Node} (hg : Gap g) {m : Node} (hm : Stop m) (tl : List Node) (code : List Cell) :
    forList (proc f) ⟨a, r ++ (g ++ m :: tl), code, t⟩ = .ok ⟨m, tl, code ++ compile e, t'.pushType (elemTy κ)⟩ := by
  have hr := h f true g m tl code a r hns hf hg hm
  cases κ with
  | false =>
    simp only [listTy, Bool.false_eq_true, if_false] at hr
    simp only [forList, hr, Outcome.bind_ok, if_true, elemTy, Bool.false_eq_true, if_false]
    rfl
  | true =>
    simp only [listTy, if_true] at hr
    obtain ⟨n, q, h1, h2⟩ := hk rfl
    rw [hns] at h1
    cases h1
    obtain ⟨f, rfl⟩ : ∃ f', f = f' + 1 := ⟨f - 1, by subst hns; simp at hf; omega⟩
    simp only [forList]
    rw [proc_other (by decide) (by decide) ha (by rw [h2]; decide) (by rw [h2]; decide) (by rw [h2]; decide)]
    simp only [Outcome.bind_ok, Bool.false_eq_true, if_false, hr, if_true, elemTy]
    rfl

theorem Readable.forEach (w : Bool) {v : Text} {x y : X} {ns ms : List Node} {k l : Nat} (hv : v ≠ []) (hvn : v ∉ Γ) (ih : Readable D κ M Γ false (.ty (listTy κ)) x ns k)
    (hk : κ = true → Heads t!"ex-wordoids" ns) (ih' : Readable D κ M (v :: Γ) true (.ty (elemTy w)) y ms l) (hl : l + 5 < 128)
    (hh : ∃ a r, ns = a :: r ∧ a.isEnd = false ∧ isText a = false) (hh' : ∃ a r, ms = a :: r ∧ a.isEnd = false ∧ isText a = false)
    {n z : Node} {g g' g'' : List Node} (hs : Start t!"for-each" n) (has : n.attrib t!"as" = v) (hg : Gap g) (hg' : Gap g') (hg'' : Gap g'') (hz : End t!"for-each" z) :
    Readable D κ M Γ true (.ty (listTy w)) (.forEach w v x y) (n :: (g ++ ns ++ g' ++ ms ++ g'' ++ [z])) (k + 4 + l + 2) := by
  intro t E hp hr
  have hw (xs : List Text) : tally xs [n] + (tally xs ns + tally xs ms) ≤ tally xs (n :: (g ++ ns ++ g' ++ ms ++ g'' ++ [z])) := by
    have h := tally_cons xs n (g ++ ns ++ g' ++ ms ++ g'' ++ [z])
    simp only [tally_append] at h
    omega
  have hone : tally [t!"for-each"] [n] = 1 := tally_start hs (by simp)
  have hlp := hp.loops rfl
  have hsl : t.slot < 256 := by
    have h1 := hr.2.2.2
    have h2 := hw [t!"for-each"]
    omega
  have hp0 := hp.bindVar hvn
  have hr0 : Room (t.bindVar v) ns := by
    have : Room t ns := hr.weaken (fun xs => by have := hw xs; omega)
    exact this
  obtain ⟨e, t1, E1, hp1, ht1, hsem1, hrd1⟩ := ih _ E hp0 hr0
  have hnl := ht1.noLoop rfl
  have hf1 : mapFind t1.slotNames v = some t.slot := by rw [hnl.2]; simp [T.bindVar, mapFind_set]
  have hs1 : t1.slot = t.slot + 1 := hnl.1
  have hty1 : t.slotTypes.length ≤ t1.slotTypes.length := ht1.types.length_le
  have hp2 : Pre D κ M (v :: Γ) true (t1.pushType (elemTy κ)) E1 := hp1.pushType hf1 hs1 (by omega)
  have sp1 : Spent t t1 ns := ht1.spent
  have sp2 : Spent t (t1.pushType (elemTy κ)) ([n] ++ ns) := by
    obtain ⟨a, b, c, d⟩ := sp1
    refine ⟨?_, ?_, ?_, ?_⟩ <;> simp only [T.pushType, tally_append, List.length_append, List.length_singleton] <;> omega
  have hr2 : Room (t1.pushType (elemTy κ)) ms := hr.after sp2 (fun xs => by have := hw xs; simp only [tally_append]; omega)
  obtain ⟨d, t3, E3, hp3, ht3, hsem3, hrd3⟩ := ih' _ E1 hp2 hr2
  obtain ⟨a, r, hns, ha, hat⟩ := hh
  obtain ⟨b, q, hms, hb, hbt⟩ := hh'
  have hsz : (compile e).length = k := hsem1.size
  have hsz' : (compile d).length = l := hsem3.size
  have hsl3 : t1.slot ≤ t3.slot := ht3.slot
  refine ⟨.forEach w t.slot e d, t3, E3, hp3.leave, ?_, ⟨?_, ?_, ?_, ?_, ?_, (fun _ h => by cases h)⟩, ?_⟩
  · refine ⟨ht3.static.trans ht1.static, ht1.strs.trans ht3.strs, ht1.sets.trans ht3.sets, ht1.glob.trans ht3.glob, ?_, ?_, ?_, (fun h => by cases h), ?_⟩
    · exact ht1.types.trans ((List.prefix_append _ _).trans ht3.types)
    · intro u hu
      have hne : u ≠ v := by rintro rfl; exact hvn hu
      rw [ht3.names u (List.mem_cons_of_mem _ hu)]
      show mapFind t1.slotNames u = _
      rw [hnl.2]
      simp [T.bindVar, mapFind_set, hne]
    · omega
    · exact sp2.trans ht3.spent (fun xs => by have := hw xs; simp only [tally_append]; omega)
  · refine Means.forEach w (k := t.slot) ?_ ?_ ?_
    · have h := hsem1.means.mono ht3.strs ht3.sets ht3.glob
      have hrho : rho Γ (t.bindVar v) = rho Γ t := by
        funext u
        simp only [rho]
        split
        · rename_i hu
          have hne : u ≠ v := by rintro rfl; exact hvn hu
          simp [T.bindVar, mapFind_set, hne]
        · rfl
      exact hrho ▸ h
    · have hrho : rho (v :: Γ) (t1.pushType (elemTy κ)) = fun u => if u = v then some t.slot else rho Γ t u := by
        funext u
        by_cases hu : u = v
        · subst hu
          simp [rho, T.pushType, hf1]
        · have : mapFind t1.slotNames u = mapFind t.slotNames u := by rw [hnl.2]; simp [T.bindVar, mapFind_set, hu]
          simp [rho, T.pushType, hu, this]
      exact hrho ▸ hsem3.means
    · intro u hu
      simp only [rho] at hu
      split at hu
      · rename_i hm
        obtain ⟨j, h1, h2, _⟩ := hp.var u hm
        rw [h1, Option.some.injEq] at hu
        omega
      · cases hu
  · refine ⟨hsem1.fits, hsem3.fits, fun hi => ?_, by omega⟩
    have := (hsem3.slots _ hi).1
    have : t1.slot ≤ t.slot := this
    omega
  · show (compile (.forEach w t.slot e d)).length = k + 4 + l + 2
    simp [compile, hsz, hsz']
    omega
  · intro i hi
    simp only [slotsOf, List.mem_cons, List.mem_append] at hi
    rcases hi with rfl | hi | hi
    · omega
    · have h1 := hsem1.slots i hi
      have : t.slot + 1 ≤ i := h1.1
      omega
    · have h1 := hsem3.slots i hi
      have : t1.slot ≤ i := h1.1
      omega
  · intro h
    cases w <;> cases h
  · intro f af h' m tl code n' r' hq hf hh hm
    cases hq
    obtain ⟨f, rfl⟩ : ∃ f', f = f' + 1 := ⟨f - 1, by simp at hf; omega⟩
    have hnt := isText_name hs.1 (show t!"for-each" ≠ t!"#text" by decide) (by decide)
    have hzt := isText_name hz.1 (show t!"for-each" ≠ t!"#text" by decide) (by decide)
    have e1 : (g ++ ns ++ g' ++ ms ++ g'' ++ [z]) ++ (h' ++ m :: tl) = g ++ (ns ++ (g' ++ b :: (q ++ (g'' ++ z :: (h' ++ m :: tl))))) := by simp [hms]
    rw [proc_forEach w hs.1, e1]
    have hne : n.attrib t!"as" ≠ [] := by rw [has]; exact hv
    have e2 : Mtx.forEach (proc f) (elemTy w) ⟨n, g ++ (ns ++ (g' ++ b :: (q ++ (g'' ++ z :: (h' ++ m :: tl))))), code, t⟩ =
        .ok ⟨z, h' ++ m :: tl, code ++ compile (.forEach w t.slot e d), t3⟩ := by
      simp only [Mtx.forEach, hne, if_false]
      have := enter hnt hg hns hat (g' ++ b :: (q ++ (g'' ++ z :: (h' ++ m :: tl)))) code (t.bindVar v)
      rw [T.bindVar] at this
      rw [has, this]
      simp only [Outcome.bind_ok]
      have h2 := forList_reads hrd1 hk hns hat (show ns.length ≤ f by simp at hf; omega) hg' (Stop.start hb hbt) (q ++ (g'' ++ z :: (h' ++ m :: tl))) code
      rw [T.bindVar] at h2
      rw [h2]
      simp only [Outcome.bind_ok, S.emit, S.emitUInt, hsl, if_true]
      rw [hrd3.call hms (show ms.length ≤ f by simp at hf; omega) hg'' (Stop.ending hz (by decide) (by decide) (by decide))]
      simp only [Outcome.bind_ok, atAnyEnd_end hz, List.nil_append, hsz', hl, if_true]
      simp [compile, hsz']
    rw [e2]
    simp only [Outcome.bind_ok, nextTag_gap hzt hh hm.1]
    rfl

theorem Readable.call {nm : Text} {ty : Ty} {x : X} (hc : D.calls = true) (hm : look D.macros nm = some (ty, x)) {n z : Node} {g : List Node} (hs : Start t!"macro" n)
    (hn : n.attrib t!"name" = nm) (hg : Gap g) (hz : End t!"macro" z) : Readable D κ M Γ lp (.ty ty) x (n :: (g ++ [z])) 2 := by
  intro t E hp hr
  obtain ⟨ha, hv, i, m, e, h1, h2, h3, h4, h5, h6, h7⟩ := hp.mac _ _ _ hm
  have hnm := hp.noMac hc
  have hone : tally [t!"macro"] [n] = 1 := tally_start hs (by simp)
  have hE : t.globals.length = E.length := by rw [hp.glob, List.length_map]
  have hroom : E.length < 256 := by
    have := hr.2.2.1
    have := tally_cons [t!"macro"] n (g ++ [z])
    omega
  have hnt := isText_name hs.1 (show t!"macro" ≠ t!"#text" by decide) (by decide)
  have hzt := isText_name hz.1 (show t!"macro" ≠ t!"#text" by decide) (by decide)
  have hne : operandCount (.gvar 0) = 1 := rfl
  cases hfi : t.insts.find? (fun e => decide (e.1 = (i, ([] : List (List Cell))))) with
  | some w =>
    obtain ⟨i', k, e', hw, he', hk⟩ := hp.inst w (List.mem_of_find?_eq_some hfi)
    have hq := List.find?_some hfi
    simp only [decide_eq_true_eq] at hq
    subst hw
    simp only [Prod.mk.injEq, and_true] at hq
    subst hq
    rw [h5] at he'
    cases he'
    have hkb : k < 256 := by rw [List.getElem?_eq_some_iff] at hk; have := hk.1; omega
    refine ⟨.gvar k, t, E, hp, Tab.refl _ _ _ _ _, ⟨Means.gvar hk h7, trivial, rfl, (fun i hi => by cases hi), fun _ => rfl, fun _ _ => .inr ⟨_, rfl⟩⟩, ?_⟩
    intro f af h' o tl code n' r' hq hf hh hst
    cases hq
    obtain ⟨f, rfl⟩ : ∃ f', f = f' + 1 := ⟨f - 1, by simp at hf; omega⟩
    rw [proc_macro ha hv hs.1 hnm]
    have e1 : g ++ [z] ++ (h' ++ o :: tl) = g ++ z :: (h' ++ o :: tl) := by simp
    rw [e1]
    simp only [macroCall, hn, h1, h2, h3, h4, ne_eq, not_true, if_false, nextTag_gap hnt hg hzt, Outcome.bind_ok, macroArgs, hfi, Outcome.pure_eq, S.emit, S.emitUInt, hkb, if_true, atEnd_end hz]
    rw [nextTag_gap hzt hh hst.1]
    simp [done, compile]
  | none =>
    refine ⟨.gvar E.length, { t with globals := t.globals ++ [m.code], insts := t.insts ++ [((i, []), t.globals.length)] }, E ++ [e], ?_, ?_,
      ⟨Means.gvar (e := e) (by simp) h7, trivial, rfl, (fun i hi => by cases hi), fun _ => rfl, fun _ _ => .inr ⟨_, rfl⟩⟩, ?_⟩
    · refine { hp with glob := by simp [hp.glob, h6], sub := ?_, inst := ?_ }
      · intro d hd
        simp only [List.mem_append, List.mem_singleton] at hd
        rcases hd with hd | rfl
        · exact hp.sub d hd
        · exact List.mem_of_getElem? h5
      · intro w hw
        simp only [List.mem_append, List.mem_singleton] at hw
        rcases hw with hw | rfl
        · obtain ⟨i', k, e', a, b, c⟩ := hp.inst w hw
          exact ⟨i', k, e', a, b, prefix_get (List.prefix_append _ _) c⟩
        · exact ⟨i, _, e, rfl, h5, by simp [hE]⟩
    · refine ⟨rfl, List.prefix_refl _, List.prefix_refl _, List.prefix_append _ _, List.prefix_refl _, fun _ _ => rfl, Nat.le_refl _, fun _ => ⟨rfl, rfl⟩, ?_, ?_, ?_, ?_⟩
      · simp
      · simp
      · have := tally_cons [t!"macro"] n (g ++ [z])
        simp only [List.length_append, List.length_singleton]
        omega
      · simp
    · intro f af h' o tl code n' r' hq hf hh hst
      cases hq
      obtain ⟨f, rfl⟩ : ∃ f', f = f' + 1 := ⟨f - 1, by simp at hf; omega⟩
      rw [proc_macro ha hv hs.1 hnm]
      have e1 : g ++ [z] ++ (h' ++ o :: tl) = g ++ z :: (h' ++ o :: tl) := by simp
      rw [e1]
      simp only [macroCall, hn, h1, h2, h3, h4, ne_eq, not_true, if_false, nextTag_gap hnt hg hzt, Outcome.bind_ok, macroArgs, hfi, Outcome.pure_eq, List.zip_nil_left, sortUses, instantiate,
        List.drop_zero, S.emit, S.emitUInt, hE, hroom, if_true, atEnd_end hz]
      rw [nextTag_gap hzt hh hst.1]
      simp [done, compile]

theorem operandCount_pos (e : Expr) : 1 ≤ operandCount e := by
  induction e <;> simp only [operandCount] <;> omega

/-- Every way to write an expression is read. -/
theorem W.read {cat : Cat} {x : X} {ns : List Node} {k : Nat} (h : W D κ Γ lp cat x ns k) : Readable D κ M Γ lp cat x ns k := by
  induction h with
  | leaf o ns hb => exact .leaf o hb
  | int i ns hb h1 h2 => exact .int hb h1 h2
  | var v ns hv hb => exact .var hv hb
  | un o n g g' e hw hs hg hg' hz ih => exact .un o ih hw.head hs hg hg' hz
  | bin o n g g' g'' e hw hw' hs hg hg' hg'' hz ih ih' => exact .bin o ih ih' hw.head hw'.head hs hg hg' hg'' hz
  | one hw ih => exact .one ih hw.head
  | more g hw hg hw' ih ih' => exact .more ih ih' hw.head hw'.head hg
  | and n g g' e hw hs hg hg' hz ih => exact .and ih hw.head hs hg hg' hz operandCount_pos
  | or n g g' e hw hs hg hg' hz ih => exact .or ih hw.head hs hg hg' hz operandCount_pos
  | streq s n g g' e hw hs ha hg hg' hz ih => exact .streq ih hw.head hs ha hg hg' hz
  | set o l n g g' e hw hs h1 h2 hl hg hg' hz ih => exact .set o ih hw.head hs h1 h2 hl hg hg' hz
  | join s n g g' e hw hs ha hg hg' hz ih => exact .join ih hw.head hs ha hg hg' hz
  | slice b e n g g' z ht hw hs hzn hb he h1 h2 h3 h4 hg hg' hz ih => exact .slice ht ih hw.head hs hzn hb he h1 h2 h3 h4 hg hg' hz
  | subscript w i n g g' e hw hs hi hib hg hg' hz ih => exact .subscript w ih hw.head hs hi hib hg hg' hz
  | forEach w v n g g' g'' e hv hvn hw hk hw' hl hs has hg hg' hg'' hz ih ih' => exact .forEach w hv hvn ih hk ih' hl hw.head hw'.head hs has hg hg' hg'' hz
  | call m ty x n g e hc hm hs hn hg hz => exact .call hc hm hs hn hg hz

end

end Verif.Mtx
