import Verif.Mtx.Read
/-!
# Reading an expression: the induction
-/
namespace Verif.Mtx
open Verif.VM (Cell Op Expr compile operandCount slotsOf Fits intByte)
open Verif.Tsx (Node Gap Start End isText mapFind mapSet mapFind_set)

section
variable {D : Scope} {κ : Bool} {M : List Expr} {Γ : List Text} {lp : Bool} {t : T} {E : List Expr}

theorem tally_wrap (xs : List Text) (ns : List Node) (n z : Node) (g g' : List Node) : tally xs ns ≤ tally xs (n :: (g ++ ns ++ g' ++ [z])) := by
  rw [tally_cons]; simp only [tally_append]; omega

theorem tally_wrap' (xs : List Text) (ns : List Node) (n z : Node) (g g' : List Node) : tally xs [n] + tally xs ns ≤ tally xs (n :: (g ++ ns ++ g' ++ [z])) := by
  have h := tally_cons xs n (g ++ ns ++ g' ++ [z])
  simp only [tally_append] at h
  omega

theorem Pre.pushStr (h : Pre D κ M Γ lp t E) (s : Text) : Pre D κ M Γ lp { t with strs := t.strs ++ [s] } E where
  str n u hu := by
    obtain ⟨i, h1, h2⟩ := h.str n u hu
    exact ⟨i, h1, prefix_get (List.prefix_append _ _) h2⟩
  noMac := h.noMac
  mac n ty x hx := by
    obtain ⟨a, b, i, m, e, h1, h2, h3, h4, h5, h6, h7⟩ := h.mac n ty x hx
    exact ⟨a, b, i, m, e, h1, h2, h3, h4, h5, h6, h7.mono (List.prefix_append _ _) (List.prefix_refl _) (List.prefix_refl _)⟩
  glob := h.glob
  sub := h.sub
  inst := h.inst
  args := h.args
  var := h.var
  kinds := h.kinds
  loops := h.loops

theorem Pre.pushSet (h : Pre D κ M Γ lp t E) (s : List Text) : Pre D κ M Γ lp { t with sets := t.sets ++ [s] } E where
  str := h.str
  noMac := h.noMac
  mac n ty x hx := by
    obtain ⟨a, b, i, m, e, h1, h2, h3, h4, h5, h6, h7⟩ := h.mac n ty x hx
    exact ⟨a, b, i, m, e, h1, h2, h3, h4, h5, h6, h7.mono (List.prefix_refl _) (List.prefix_append _ _) (List.prefix_refl _)⟩
  glob := h.glob
  sub := h.sub
  inst := h.inst
  args := h.args
  var := h.var
  kinds := h.kinds
  loops := h.loops

theorem strRef_reads {n : Node} {x : Text} (hn : Start x n) (hx : x ∈ strElems) {s : Text} (hs : StrAttr D n s) (hp : Pre D κ M Γ lp t E) (hr : Room t [n]) :
    ∃ (k : Nat) (t1 : T), (∀ r code, S.strRef ⟨n, r, code, t⟩ = .ok (some k, ⟨n, r, code, t1⟩)) ∧ Pre D κ M Γ lp t1 E ∧ Tab Γ lp t t1 E E [n] ∧ t1.strs[k]? = some s ∧ k < 255 := by
  have hc := hr.1
  rw [tally_start hn hx] at hc
  rcases hs with ⟨h1, h2, h3⟩ | ⟨h1, h2⟩
  · refine ⟨t.strs.length, { t with strs := t.strs ++ [s] }, ?_, hp.pushStr s, ?_, by simp, by omega⟩
    · intro r code
      simp [S.strRef, h1, h2, h3]
    · exact ⟨rfl, List.prefix_append _ _, List.prefix_refl _, List.prefix_refl _, List.prefix_refl _, fun _ _ => rfl, Nat.le_refl _, fun _ => ⟨rfl, rfl⟩,
        by simp [tally_start hn hx], by simp, by simp, by simp⟩
  · obtain ⟨i, h3, h4⟩ := hp.str _ _ h2
    have hi : i < t.strs.length := by rw [List.getElem?_eq_some_iff] at h4; exact h4.1
    refine ⟨i, t, ?_, hp, Tab.refl _ _ _ _ _, h4, by omega⟩
    intro r code
    simp [S.strRef, h1, h3]

theorem setRef_reads {n : Node} {x : Text} (hn : Start x n) (hx : x ∈ setElems) {l : List Text} (h1 : n.attrib t!"name" = []) (h2 : n.attrib t!"val" ≠ []) (hl : Words l (n.attrib t!"val"))
    (hp : Pre D κ M Γ lp t E) (hr : Room t [n]) :
    ∃ (k : Nat) (t1 : T), (∀ r code, S.setRef ⟨n, r, code, t⟩ = .ok (some k, ⟨n, r, code, t1⟩)) ∧ Pre D κ M Γ lp t1 E ∧ Tab Γ lp t t1 E E [n] ∧ t1.sets[k]? = some l ∧ k < 256 := by
  have hc := hr.2.1
  rw [tally_start hn hx] at hc
  refine ⟨t.sets.length, { t with sets := t.sets ++ [l] }, ?_, hp.pushSet l, ?_, by simp, by omega⟩
  · intro r code
    simp [S.setRef, h1, h2, hl.split]
  · exact ⟨rfl, List.prefix_refl _, List.prefix_append _ _, List.prefix_refl _, List.prefix_refl _, fun _ _ => rfl, Nat.le_refl _, fun _ => ⟨rfl, rfl⟩,
      by simp, by simp [tally_start hn hx], by simp, by simp⟩

/-- A bare element: the node after it. -/
theorem Bare.start {x : Text} {p : Node → Prop} {n : Node} {r : List Node} (h : Bare x p (n :: r)) : Start x n ∧ p n := by
  generalize hq : n :: r = q at h
  cases h with
  | short n' hs hp => cases hq; exact ⟨hs, hp⟩
  | long n' e hs hp he => cases hq; exact ⟨hs, hp⟩

theorem compile_un (o : Un) (e : Expr) : compile (o.expr e) = compile e ++ [.op o.op] := by cases o <;> rfl
theorem compile_bin (o : Bin) (e d : Expr) : compile (o.expr e d) = compile e ++ compile d ++ o.ops := by cases o <;> simp [Bin.expr, compile, Bin.ops]
theorem compile_set (o : SetTest) (k : Nat) (e : Expr) : compile (o.expr k e) = compile e ++ [.op o.op, .arg k] := by cases o <;> rfl
theorem slots_un (o : Un) (e : Expr) : slotsOf (o.expr e) = slotsOf e := by cases o <;> rfl
theorem slots_bin (o : Bin) (e d : Expr) : slotsOf (o.expr e d) = slotsOf e ++ slotsOf d := by cases o <;> rfl
theorem slots_set (o : SetTest) (k : Nat) (e : Expr) : slotsOf (o.expr k e) = slotsOf e := by cases o <;> rfl
theorem fits_un (o : Un) (e : Expr) : Fits (o.expr e) ↔ Fits e := by cases o <;> exact Iff.rfl
theorem fits_bin (o : Bin) (e d : Expr) : Fits (o.expr e d) ↔ Fits e ∧ Fits d := by cases o <;> exact Iff.rfl
theorem fits_set (o : SetTest) (k : Nat) (e : Expr) : Fits (o.expr k e) ↔ Fits e := by cases o <;> exact Iff.rfl

theorem un_elem (o : Un) : o.elem ∉ bareNames ∧ o.elem ≠ t!"#text" ∧ o.elem ≠ t!"#comment" := by cases o <;> decide
theorem bin_elem (o : Bin) : o.elem ∉ bareNames ∧ o.elem ≠ t!"#text" ∧ o.elem ≠ t!"#comment" := by
  rcases o with _ | _ | _ | o <;> first | decide | (cases o <;> decide)
theorem set_elem (o : SetTest) : o.elem ∉ bareNames ∧ o.elem ≠ t!"#text" ∧ o.elem ≠ t!"#comment" := by cases o <;> decide

theorem un_chk (o : Un) {z : Node} (hz : End o.elem z) (r : List Node) (code : List Cell) (t : T) : o.chk ⟨z, r, code, t⟩ = .ok ⟨z, r, code, t⟩ := by
  cases o <;> first | exact atEnd_end hz r code t | exact atAnyEnd_end hz r code t | rfl

/-- What is shown of an expression. -/
def Readable (D : Scope) (κ : Bool) (M : List Expr) (Γ : List Text) (lp : Bool) (cat : Cat) (x : X) (ns : List Node) (k : Nat) : Prop :=
  ∀ t E, Pre D κ M Γ lp t E → Room t ns → ∃ e t' E', Pre D κ M Γ lp t' E' ∧ Tab Γ lp t t' E E' ns ∧ Sem Γ cat t t' E' x e k ∧ Reads cat ns t e t'

theorem Sem.shift {cat cat' : Cat} {t1 t' : T} {E' : List Expr} {x x' : X} {e e' : Expr} {k k' : Nat} (h : Sem Γ cat t1 t' E' x e k) (ns : List Node) {E1 : List Expr} (ht : Tab Γ lp t t1 E E1 ns)
    (hm : Means t'.strs t'.sets E' (rho Γ t) x e → Means t'.strs t'.sets E' (rho Γ t) x' e') (hf : Fits e → Fits e')
    (hz : match cat' with | .ty _ => (compile e').length = k' | .ops => (compile e').length + operandCount e' = k') (hs : slotsOf e' = slotsOf e)
    (hc : cat' = .ty .bool → operandCount e' = 1)
    (hcj : ∀ y, x' = .and y → (∃ e'', e' = .and e'' ∧ Means t'.strs t'.sets E' (rho Γ t) y e'') ∨ ∃ k, e' = .gvar k) : Sem Γ cat' t t' E' x' e' k' where
  means := hm (ht.rho ▸ h.means)
  fits := hf h.fits
  size := hz
  slots i hi := by
    rw [hs] at hi
    have := h.slots i hi
    have := ht.slot
    omega
  count := hc
  conj := hcj

theorem Readable.leaf (o : Leaf) {ns : List Node} (hb : Bare o.elem (fun _ => True) ns) : Readable D κ M Γ lp (.ty o.res) (.leaf o) ns 1 := by
  intro t E hp hr
  refine ⟨o.expr, t, E, hp, Tab.refl _ _ _ _ _, ⟨Means.leaf o, by cases o <;> trivial, by cases o <;> rfl, ?_, ?_, (fun _ h => by cases h)⟩, ?_⟩
  · intro i hi; cases o <;> cases hi
  · intro _; cases o <;> rfl
  · intro f af g m tl code n r hq hf hg hm
    subst hq
    obtain ⟨f, rfl⟩ : ∃ f', f = f' + 1 := ⟨f - 1, by simp at hf; omega⟩
    rw [proc_leaf o hb.start.1.1, Mtx.leaf, S.emit, past_bare hb (by cases o <;> decide) hg hm]
    cases o <;> rfl

theorem Readable.int {i : Int} {ns : List Node} (hb : Bare t!"int" (fun n => IntLit (n.attrib t!"val") i) ns) (h1 : -128 ≤ i) (h2 : i < 128) :
    Readable D κ M Γ lp (.ty .int) (.int i) ns 2 := by
  intro t E hp hr
  refine ⟨.lit i, t, E, hp, Tab.refl _ _ _ _ _, ⟨Means.int i, ⟨h1, h2⟩, rfl, (fun i hi => by cases hi), fun _ => rfl, (fun _ h => by cases h)⟩, ?_⟩
  intro f af g m tl code n r hq hf hg hm
  subst hq
  obtain ⟨f, rfl⟩ : ∃ f', f = f' + 1 := ⟨f - 1, by simp at hf; omega⟩
  rw [proc_int hb.start.1.1 hb.start.2 h1 h2, past_bare hb (by decide) hg hm]
  rfl

theorem Readable.var {v : Text} (hv : v ∈ Γ) {ns : List Node} (hb : Bare t!"var" (fun n => n.attrib t!"name" = v) ns) : Readable D κ M Γ lp (.ty (elemTy κ)) (.var v) ns 2 := by
  intro t E hp hr
  obtain ⟨k, hk1, hk2, hk3⟩ := hp.var v hv
  have hty : t.slotTypes[k]? = some (elemTy κ) := by
    rw [List.getElem?_eq_getElem hk3, hp.kinds _ (List.getElem_mem hk3)]
  have hb' : k < 256 := by have := hr.2.2.2; omega
  refine ⟨.var k, t, E, hp, Tab.refl _ _ _ _ _, ⟨Means.var (by simp [rho, hv, hk1]), trivial, rfl, (fun i hi => by cases hi), fun _ => rfl, (fun _ h => by cases h)⟩, ?_⟩
  intro f af g m tl code n r hq hf hg hm
  subst hq
  obtain ⟨f, rfl⟩ : ∃ f', f = f' + 1 := ⟨f - 1, by simp at hf; omega⟩
  rw [proc_var (by cases κ <;> simp [elemTy]) hb.start.1.1 hp.args (by rw [hb.start.2]; exact hk1) hty hb', past_bare hb (by decide) hg hm]
  rfl

theorem Readable.un (o : Un) {x : X} {ns : List Node} {k : Nat} (ih : Readable D κ M Γ lp (.ty o.arg) x ns k) (hh : ∃ a r, ns = a :: r ∧ a.isEnd = false ∧ isText a = false)
    {n z : Node} {g g' : List Node} (hs : Start o.elem n) (hg : Gap g) (hg' : Gap g') (hz : End o.elem z) :
    Readable D κ M Γ lp (.ty o.res) (.un o x) (n :: (g ++ ns ++ g' ++ [z])) (k + 1) := by
  intro t E hp hr
  obtain ⟨e, t', E', hp', ht, hsem, hrd⟩ := ih t E hp (hr.weaken (fun xs => tally_wrap xs ns n z g g'))
  obtain ⟨a, r, hns, ha, hat⟩ := hh
  have hsz : (compile e).length = k := hsem.size
  refine ⟨o.expr e, t', E', hp', ht.weaken (fun xs => tally_wrap xs ns n z g g'), ?_, ?_⟩
  · refine hsem.shift [] (Tab.refl Γ lp t E []) (Means.un o) (fits_un o e).2 ?_ (slots_un o e) ?_ (fun _ h => by cases h)
    · show (compile (o.expr e)).length = k + 1
      rw [compile_un]; simp [hsz]
    · intro _; cases o <;> rfl
  · intro f af h' m tl code n' r' hq hf hh hm
    cases hq
    obtain ⟨f, rfl⟩ : ∃ f', f = f' + 1 := ⟨f - 1, by simp at hf; omega⟩
    rw [proc_un o hs.1, un_reads hrd hns hat (by simp at hf; omega) (un_elem o).1 (un_elem o).2.1 (un_elem o).2.2 hs hz hg hg' hh hm tl code _ (un_chk o hz), compile_un]
    simp [done]

theorem Readable.bin (o : Bin) {x y : X} {ns ms : List Node} {k l : Nat} (ih : Readable D κ M Γ lp (.ty o.arg) x ns k) (ih' : Readable D κ M Γ lp (.ty o.arg) y ms l)
    (hh : ∃ a r, ns = a :: r ∧ a.isEnd = false ∧ isText a = false) (hh' : ∃ a r, ms = a :: r ∧ a.isEnd = false ∧ isText a = false)
    {n z : Node} {g g' g'' : List Node} (hs : Start o.elem n) (hg : Gap g) (hg' : Gap g') (hg'' : Gap g'') (hz : End o.elem z) :
    Readable D κ M Γ lp (.ty o.res) (.bin o x y) (n :: (g ++ ns ++ g' ++ ms ++ g'' ++ [z])) (k + l + o.cells) := by
  intro t E hp hr
  have hw (xs : List Text) : tally xs ns + tally xs ms ≤ tally xs (n :: (g ++ ns ++ g' ++ ms ++ g'' ++ [z])) := by
    rw [tally_cons]; simp only [tally_append]; omega
  obtain ⟨e, t', E', hp', ht, hsem, hrd⟩ := ih t E hp (hr.weaken (fun xs => by have := hw xs; omega))
  obtain ⟨d, t'', E'', hp'', ht', hsem', hrd'⟩ := ih' t' E' hp' (hr.after ht.spent hw)
  obtain ⟨a, r, hns, ha, hat⟩ := hh
  obtain ⟨b, q, hms, hb, hbt⟩ := hh'
  have hsz : (compile e).length = k := hsem.size
  have hsz' : (compile d).length = l := hsem'.size
  refine ⟨o.expr e d, t'', E'', hp'', ht.trans ht' hw, ⟨?_, (fits_bin o e d).2 ⟨hsem.fits, hsem'.fits⟩, ?_, ?_, ?_, (fun _ h => by cases h)⟩, ?_⟩
  · exact Means.bin o (hsem.means.mono ht'.strs ht'.sets ht'.glob) (ht.rho ▸ hsem'.means)
  · show (compile (o.expr e d)).length = k + l + o.cells
    rw [compile_bin]
    cases o <;> simp [hsz, hsz', Bin.ops, Bin.cells] <;> omega
  · intro i hi
    rw [slots_bin, List.mem_append] at hi
    have h1 := ht.slot; have h2 := ht'.slot
    rcases hi with hi | hi
    · have := hsem.slots i hi; omega
    · have := hsem'.slots i hi; omega
  · intro hc
    cases o <;> first | rfl | cases hc
  · intro f af h' m tl code n' r' hq hf hh hm
    cases hq
    obtain ⟨f, rfl⟩ : ∃ f', f = f' + 1 := ⟨f - 1, by simp at hf; omega⟩
    rw [proc_bin o hs.1, bin_reads hrd hrd' hns hat hms (Stop.start hb hbt) (by simp at hf; omega) (by simp at hf; omega) (bin_elem o).1 (bin_elem o).2.1 (bin_elem o).2.2 hs hz hg hg' hg'' hh hm tl code _,
      compile_bin]
    simp [done]

theorem Readable.one {x : X} {ns : List Node} {k : Nat} (ih : Readable D κ M Γ lp (.ty .bool) x ns k) (hh : ∃ a r, ns = a :: r ∧ a.isEnd = false ∧ isText a = false) :
    Readable D κ M Γ lp .ops x ns (k + 1) := by
  intro t E hp hr
  obtain ⟨e, t', E', hp', ht, hsem, hrd⟩ := ih t E hp hr
  have hsz : (compile e).length = k := hsem.size
  have hc := hsem.count rfl
  refine ⟨e, t', E', hp', ht, ⟨hsem.means, hsem.fits, ?_, hsem.slots, (fun h => by cases h), hsem.conj⟩, ?_⟩
  · show (compile e).length + operandCount e = k + 1
    omega
  · intro f F h' m tl code n r hq hf hF hh' hm hme
    obtain ⟨a, q, hns, ha, hat⟩ := hh
    rw [hq] at hns
    cases hns
    subst hq
    obtain ⟨F, rfl⟩ : ∃ F', F = F' + 1 + 1 := ⟨F - 2, by simp at hF; omega⟩
    rw [operands]
    simp only [ha, Bool.false_eq_true, if_false]
    rw [hrd.call rfl hf hh' hm]
    simp [operands, hme, hc]

theorem Readable.more {x y : X} {ns ms : List Node} {k l : Nat} (ih : Readable D κ M Γ lp (.ty .bool) x ns k) (ih' : Readable D κ M Γ lp .ops y ms l)
    (hh : ∃ a r, ns = a :: r ∧ a.isEnd = false ∧ isText a = false) (hh' : ∃ a r, ms = a :: r ∧ a.isEnd = false ∧ isText a = false) {g : List Node} (hg : Gap g) :
    Readable D κ M Γ lp .ops (.seq x y) (ns ++ g ++ ms) (k + 1 + l) := by
  intro t E hp hr
  have hw (xs : List Text) : tally xs ns + tally xs ms ≤ tally xs (ns ++ g ++ ms) := by
    simp only [tally_append]; omega
  obtain ⟨e, t', E', hp', ht, hsem, hrd⟩ := ih t E hp (hr.weaken (fun xs => by have := hw xs; omega))
  obtain ⟨d, t'', E'', hp'', ht', hsem', hrd'⟩ := ih' t' E' hp' (hr.after ht.spent hw)
  obtain ⟨a, r, hns, ha, hat⟩ := hh
  obtain ⟨b, q, hms, hb, hbt⟩ := hh'
  have hsz : (compile e).length = k := hsem.size
  have hsz' : (compile d).length + operandCount d = l := hsem'.size
  have hc := hsem.count rfl
  refine ⟨.seq e d, t'', E'', hp'', ht.trans ht' hw, ⟨?_, ⟨hsem.fits, hsem'.fits⟩, ?_, ?_, (fun h => by cases h), (fun _ h => by cases h)⟩, ?_⟩
  · exact Means.seq (hsem.means.mono ht'.strs ht'.sets ht'.glob) (ht.rho ▸ hsem'.means)
  · show (compile (.seq e d)).length + operandCount (.seq e d) = k + 1 + l
    simp only [compile, operandCount, List.length_append]
    omega
  · intro i hi
    simp only [slotsOf, List.mem_append] at hi
    have h1 := ht.slot; have h2 := ht'.slot
    rcases hi with hi | hi
    · have := hsem.slots i hi; omega
    · have := hsem'.slots i hi; omega
  · intro f F h' m tl code n r' hq hf hF hh' hm hme
    subst hns
    simp only [List.cons_append, List.cons.injEq] at hq
    obtain ⟨rfl, rfl⟩ := hq
    obtain ⟨F, rfl⟩ : ∃ F', F = F' + 1 := ⟨F - 1, by omega⟩
    rw [operands]
    simp only [ha, Bool.false_eq_true, if_false]
    have e1 : (r ++ g ++ ms) ++ (h' ++ m :: tl) = r ++ (g ++ b :: (q ++ (h' ++ m :: tl))) := by simp [hms]
    rw [e1, hrd.call rfl (by simp at hf ⊢; omega) hg (Stop.start hb hbt)]
    simp only [Outcome.bind_ok]
    rw [hrd' f F h' m tl _ b q hms (by simp at hf; omega) (by simp at hF; omega) hh' hm hme]
    simp [compile, operandCount, hc, Nat.add_comm]

theorem Readable.and {x : X} {ns : List Node} {k : Nat} (ih : Readable D κ M Γ lp .ops x ns k) (hh : ∃ a r, ns = a :: r ∧ a.isEnd = false ∧ isText a = false)
    {n z : Node} {g g' : List Node} (hs : Start t!"and" n) (hg : Gap g) (hg' : Gap g') (hz : End t!"and" z) (hpos : ∀ e, 1 ≤ operandCount e) :
    Readable D κ M Γ lp (.ty .bool) (.and x) (n :: (g ++ ns ++ g' ++ [z])) (k - 1) := by
  intro t E hp hr
  obtain ⟨e, t', E', hp', ht, hsem, hrd⟩ := ih t E hp (hr.weaken (fun xs => tally_wrap xs ns n z g g'))
  obtain ⟨a, r, hns, ha, hat⟩ := hh
  have hsz : (compile e).length + operandCount e = k := hsem.size
  refine ⟨.and e, t', E', hp', ht.weaken (fun xs => tally_wrap xs ns n z g g'), ?_, ?_⟩
  · refine hsem.shift [] (Tab.refl Γ lp t E []) Means.and id ?_ rfl (fun _ => rfl) (fun y hy => by cases hy; exact .inl ⟨e, rfl, hsem.means⟩)
    show (compile (.and e)).length = k - 1
    have := hpos e
    simp only [compile, List.length_append, List.length_replicate]; omega
  · intro f af h' m tl code n' r' hq hf hh hm
    cases hq
    obtain ⟨f, rfl⟩ : ∃ f', f = f' + 1 := ⟨f - 1, by simp at hf; omega⟩
    rw [proc_and hs.1, comm_reads hrd hns hat (by simp at hf; omega) (by decide) (by decide) (by decide) hs hz hg hg' hh hm tl code _]
    simp [done, compile]

theorem Readable.or {x : X} {ns : List Node} {k : Nat} (ih : Readable D κ M Γ lp .ops x ns k) (hh : ∃ a r, ns = a :: r ∧ a.isEnd = false ∧ isText a = false)
    {n z : Node} {g g' : List Node} (hs : Start t!"or" n) (hg : Gap g) (hg' : Gap g') (hz : End t!"or" z) (hpos : ∀ e, 1 ≤ operandCount e) :
    Readable D κ M Γ lp (.ty .bool) (.or x) (n :: (g ++ ns ++ g' ++ [z])) (k - 1) := by
  intro t E hp hr
  obtain ⟨e, t', E', hp', ht, hsem, hrd⟩ := ih t E hp (hr.weaken (fun xs => tally_wrap xs ns n z g g'))
  obtain ⟨a, r, hns, ha, hat⟩ := hh
  have hsz : (compile e).length + operandCount e = k := hsem.size
  refine ⟨.or e, t', E', hp', ht.weaken (fun xs => tally_wrap xs ns n z g g'), ?_, ?_⟩
  · refine hsem.shift [] (Tab.refl Γ lp t E []) Means.or id ?_ rfl (fun _ => rfl) (fun _ h => by cases h)
    show (compile (.or e)).length = k - 1
    have := hpos e
    simp only [compile, List.length_append, List.length_replicate]; omega
  · intro f af h' m tl code n' r' hq hf hh hm
    cases hq
    obtain ⟨f, rfl⟩ : ∃ f', f = f' + 1 := ⟨f - 1, by simp at hf; omega⟩
    rw [proc_or hs.1, comm_reads hrd hns hat (by simp at hf; omega) (by decide) (by decide) (by decide) hs hz hg hg' hh hm tl code _]
    simp [done, compile]

theorem Readable.streq {s : Text} {x : X} {ns : List Node} {k : Nat} (ih : Readable D κ M Γ lp (.ty .str) x ns k) (hh : ∃ a r, ns = a :: r ∧ a.isEnd = false ∧ isText a = false)
    {n z : Node} {g g' : List Node} (hs : Start t!"streq" n) (ha : StrAttr D n s) (hg : Gap g) (hg' : Gap g') (hz : End t!"streq" z) :
    Readable D κ M Γ lp (.ty .bool) (.streq s x) (n :: (g ++ ns ++ g' ++ [z])) (k + 2) := by
  intro t E hp hr
  obtain ⟨j, t1, hget, hp1, ht1, hj, hjb⟩ := strRef_reads hs (by decide) ha hp (hr.weaken (fun xs => by have := tally_wrap' xs ns n z g g'; omega))
  obtain ⟨e, t', E', hp', ht, hsem, hrd⟩ := ih t1 E hp1 (hr.after ht1.spent (fun xs => tally_wrap' xs ns n z g g'))
  obtain ⟨a, r, hns, _, hat⟩ := hh
  have hsz : (compile e).length = k := hsem.size
  refine ⟨.streq j e, t', E', hp', ht1.trans ht (fun xs => tally_wrap' xs ns n z g g'), ?_, ?_⟩
  · refine hsem.shift _ ht1 (Means.streq (prefix_get ht.strs hj) hjb) id ?_ rfl (fun _ => rfl) (fun _ h => by cases h)
    show (compile (.streq j e)).length = k + 2
    simp [compile, hsz]
  · intro f af h' m tl code n' r' hq hf hh hm
    cases hq
    obtain ⟨f, rfl⟩ : ∃ f', f = f' + 1 := ⟨f - 1, by simp at hf; omega⟩
    rw [proc_streq hs.1, constOp_reads hrd hns hat (by simp at hf; omega) (by decide) (by decide) (by decide) hs hz hg hg' hh hm tl code _ _ (show j < 256 by omega) (fun r => hget r code)]
    simp [done, compile]

theorem Readable.set (o : SetTest) {l : List Text} {x : X} {ns : List Node} {k : Nat} (ih : Readable D κ M Γ lp (.ty o.arg) x ns k)
    (hh : ∃ a r, ns = a :: r ∧ a.isEnd = false ∧ isText a = false) {n z : Node} {g g' : List Node} (hs : Start o.elem n) (h1 : n.attrib t!"name" = []) (h2 : n.attrib t!"val" ≠ [])
    (hl : Words l (n.attrib t!"val")) (hg : Gap g) (hg' : Gap g') (hz : End o.elem z) :
    Readable D κ M Γ lp (.ty .bool) (.set o l x) (n :: (g ++ ns ++ g' ++ [z])) (k + 2) := by
  intro t E hp hr
  obtain ⟨j, t1, hget, hp1, ht1, hj, hjb⟩ := setRef_reads hs (by cases o <;> decide) h1 h2 hl hp (hr.weaken (fun xs => by have := tally_wrap' xs ns n z g g'; omega))
  obtain ⟨e, t', E', hp', ht, hsem, hrd⟩ := ih t1 E hp1 (hr.after ht1.spent (fun xs => tally_wrap' xs ns n z g g'))
  obtain ⟨a, r, hns, _, hat⟩ := hh
  have hsz : (compile e).length = k := hsem.size
  refine ⟨o.expr j e, t', E', hp', ht1.trans ht (fun xs => tally_wrap' xs ns n z g g'), ?_, ?_⟩
  · refine hsem.shift _ ht1 (Means.set o (prefix_get ht.sets hj)) (fits_set o j e).2 ?_ (slots_set o j e) (fun _ => by cases o <;> rfl) (fun _ h => by cases h)
    show (compile (o.expr j e)).length = k + 2
    rw [compile_set]
    simp [hsz]
  · intro f af h' m tl code n' r' hq hf hh hm
    cases hq
    obtain ⟨f, rfl⟩ : ∃ f', f = f' + 1 := ⟨f - 1, by simp at hf; omega⟩
    rw [proc_set o hs.1, constOp_reads hrd hns hat (by simp at hf; omega) (set_elem o).1 (set_elem o).2.1 (set_elem o).2.2 hs hz hg hg' hh hm tl code _ _ hjb (fun r => hget r code), compile_set]
    simp [done]

theorem Readable.join {s : Option Text} {x : X} {ns : List Node} {k : Nat} (ih : Readable D κ M Γ lp (.ty .strs) x ns k) (hh : ∃ a r, ns = a :: r ∧ a.isEnd = false ∧ isText a = false)
    {n z : Node} {g g' : List Node} (hs : Start t!"join" n) (ha : SepAttr D n s) (hg : Gap g) (hg' : Gap g') (hz : End t!"join" z) :
    Readable D κ M Γ lp (.ty .str) (.join s x) (n :: (g ++ ns ++ g' ++ [z])) (k + 2) := by
  intro t E hp hr
  obtain ⟨j, t1, hget, hp1, ht1, hj⟩ : ∃ (j : Option Nat) (t1 : T), (∀ r code, S.strRef ⟨n, r, code, t⟩ = .ok (j, ⟨n, r, code, t1⟩)) ∧ Pre D κ M Γ lp t1 E ∧ Tab Γ lp t t1 E E [n] ∧
      ((s = none ∧ j = none) ∨ ∃ u i, s = some u ∧ j = some i ∧ t1.strs[i]? = some u ∧ i < 255) := by
    cases s with
    | none => exact ⟨none, t, fun r code => by simp [S.strRef, ha.1, ha.2], hp, Tab.refl _ _ _ _ _, .inl ⟨rfl, rfl⟩⟩
    | some u =>
      obtain ⟨j, t1, hget, hp1, ht1, hj, hjb⟩ := strRef_reads hs (by decide) ha hp (hr.weaken (fun xs => by have := tally_wrap' xs ns n z g g'; omega))
      exact ⟨some j, t1, hget, hp1, ht1, .inr ⟨u, j, rfl, rfl, hj, hjb⟩⟩
  obtain ⟨e, t', E', hp', ht, hsem, hrd⟩ := ih t1 E hp1 (hr.after ht1.spent (fun xs => tally_wrap' xs ns n z g g'))
  obtain ⟨a, r, hns, _, hat⟩ := hh
  have hsz : (compile e).length = k := hsem.size
  refine ⟨.join (j.getD 255) e, t', E', hp', ht1.trans ht (fun xs => tally_wrap' xs ns n z g g'), ?_, ?_⟩
  · refine hsem.shift _ ht1 (Means.join ?_) id ?_ rfl (fun h => by cases h) (fun _ h => by cases h)
    · rcases hj with ⟨rfl, rfl⟩ | ⟨u, i, rfl, rfl, h1, h2⟩
      · exact .inl ⟨rfl, rfl⟩
      · exact .inr ⟨u, rfl, prefix_get ht.strs h1, h2⟩
    · show (compile (.join (j.getD 255) e)).length = k + 2
      simp [compile, hsz]
  · intro f af h' m tl code n' r' hq hf hh hm
    cases hq
    obtain ⟨f, rfl⟩ : ∃ f', f = f' + 1 := ⟨f - 1, by simp at hf; omega⟩
    have hjb : j.getD 255 < 256 := by
      rcases hj with ⟨rfl, rfl⟩ | ⟨u, i, rfl, rfl, h1, h2⟩
      · decide
      · simp; omega
    rw [proc_join hs.1, join_reads hrd hns hat (by simp at hf; omega) hs hz hg hg' hh hm tl code hjb (fun r => hget r code)]
    simp [done, compile]

theorem Readable.slice {ty : Ty} {b c : Int} {x : X} {ns : List Node} {k : Nat} (hty : ty = .str ∨ ty = .strs ∨ ty = .wrds) (ih : Readable D κ M Γ lp (.ty ty) x ns k)
    (hh : ∃ a r, ns = a :: r ∧ a.isEnd = false ∧ isText a = false)
    {n z : Node} {g g' : List Node} (hs : Start t!"slice" n) (hzn : z.attrs = n.attrs) (hb : IntAttr (n.attrib t!"start") b) (hc : IntAttr (n.attrib t!"end") c)
    (h1 : -128 ≤ b) (h2 : b < 128) (h3 : -128 ≤ c) (h4 : c < 128) (hg : Gap g) (hg' : Gap g') (hz : End t!"slice" z) :
    Readable D κ M Γ lp (.ty ty) (.slice b c x) (n :: (g ++ ns ++ g' ++ [z])) (k + 3) := by
  intro t E hp hr
  obtain ⟨e, t', E', hp', ht, hsem, hrd⟩ := ih t E hp (hr.weaken (fun xs => tally_wrap xs ns n z g g'))
  obtain ⟨a, r, hns, ha, hat⟩ := hh
  have hsz : (compile e).length = k := hsem.size
  have hza (y : Text) : z.attrib y = n.attrib y := by rw [Tsx.Node.attrib, hzn]; rfl
  refine ⟨.slice b c e, t', E', hp', ht.weaken (fun xs => tally_wrap xs ns n z g g'), ?_, ?_⟩
  · refine hsem.shift [] (Tab.refl Γ lp t E []) (Means.slice b c) (fun hf => ⟨hf, h1, h2, h3, h4⟩) ?_ rfl (fun _ => rfl) (fun _ h => by cases h)
    show (compile (.slice b c e)).length = k + 3
    simp [compile, hsz]
  · intro f af h' m tl code n' r' hq hf hh hm
    cases hq
    obtain ⟨f, rfl⟩ : ∃ f', f = f' + 1 := ⟨f - 1, by simp at hf; omega⟩
    rw [proc_slice hty hs.1, slice_reads hrd hns hat (by simp at hf; omega) hs hz hg hg' hh hm tl code (by rw [hza]; exact hb) (by rw [hza]; exact hc) h1 h2 h3 h4]
    simp [done, compile]

theorem Readable.subscript (w : Bool) {i : Nat} {x : X} {ns : List Node} {k : Nat} (ih : Readable D κ M Γ lp (.ty (listTy w)) x ns k)
    (hh : ∃ a r, ns = a :: r ∧ a.isEnd = false ∧ isText a = false)
    {n z : Node} {g g' : List Node} (hs : Start t!"subscript" n) (hi : IntLit (n.attrib t!"idx") i) (hib : i < 256) (hg : Gap g) (hg' : Gap g') (hz : End t!"subscript" z) :
    Readable D κ M Γ lp (.ty (elemTy w)) (.subscript i x) (n :: (g ++ ns ++ g' ++ [z])) (k + 2) := by
  intro t E hp hr
  obtain ⟨e, t', E', hp', ht, hsem, hrd⟩ := ih t E hp (hr.weaken (fun xs => tally_wrap xs ns n z g g'))
  obtain ⟨a, r, hns, ha, hat⟩ := hh
  have hsz : (compile e).length = k := hsem.size
  refine ⟨.subscript i e, t', E', hp', ht.weaken (fun xs => tally_wrap xs ns n z g g'), ?_, ?_⟩
  · refine hsem.shift [] (Tab.refl Γ lp t E []) (Means.subscript i) id ?_ rfl (fun _ => rfl) (fun _ h => by cases h)
    show (compile (.subscript i e)).length = k + 2
    simp [compile, hsz]
  · intro f af h' m tl code n' r' hq hf hh hm
    cases hq
    obtain ⟨f, rfl⟩ : ∃ f', f = f' + 1 := ⟨f - 1, by simp at hf; omega⟩
    rw [proc_subscript w hs.1, subscript_reads hrd hns hat (by simp at hf; omega) hs hz hg hg' hh hm tl code hi hib]
    simp [done, compile]

end

end Verif.Mtx
