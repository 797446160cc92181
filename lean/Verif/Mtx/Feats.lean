import Verif.Mtx.ReadLoop
/-!
# Reading the templates
-/
namespace Verif.Mtx
open Verif.VM (Ctx Cell Op Expr Stmt Str Val compile compileFeat operandCount slotsOf Fits columns noVars CleanFeat meaning Clean)
open Verif.Tsx (Node Gap Start End isText mapFind mapSet mapFind_set)

/-! ### Meanings -/

/-- An expression outside of loops. -/
def Closed (strs : List Text) (sets : List (List Text)) (E : List Expr) (x : X) (e : Expr) : Prop :=
  Means strs sets E (fun _ => none) x e ∧ Fits e ∧ ∀ x', x = .and x' → (∃ e', e = .and e' ∧ Means strs sets E (fun _ => none) x' e') ∨ ∃ k, e = .gvar k

/-- A numbered instruction. -/
inductive Same (strs : List Text) (sets : List (List Text)) (E : List Expr) : Instr → Stmt → Prop where
  | pred {x e} : Closed strs sets E x e → Same strs sets E (.pred x) (.pred e)
  | outStr {x e} : Closed strs sets E x e → Same strs sets E (.outStr x) (.outStr e)
  | outBool {x e} : Closed strs sets E x e → Same strs sets E (.outBool x) (.outBool e)
  | outInt {x e} : Closed strs sets E x e → Same strs sets E (.outInt x) (.outInt e)
  | outMany {x e} : Closed strs sets E x e → Same strs sets E (.outMany x) (.outMany e)

section
variable {strs strs' : List Text} {sets sets' : List (List Text)} {E E' : List Expr}

theorem Closed.mono {x : X} {e : Expr} (h : Closed strs sets E x e) (h1 : strs <+: strs') (h2 : sets <+: sets') (h3 : E <+: E') : Closed strs' sets' E' x e := by
  refine ⟨h.1.mono h1 h2 h3, h.2.1, fun x' hx => ?_⟩
  rcases h.2.2 x' hx with ⟨e', a, b⟩ | hg
  · exact .inl ⟨e', a, b.mono h1 h2 h3⟩
  · exact .inr hg

theorem Same.mono {i : Instr} {s : Stmt} (h : Same strs sets E i s) (h1 : strs <+: strs') (h2 : sets <+: sets') (h3 : E <+: E') : Same strs' sets' E' i s := by
  cases h with
  | pred h => exact .pred (h.mono h1 h2 h3)
  | outStr h => exact .outStr (h.mono h1 h2 h3)
  | outBool h => exact .outBool (h.mono h1 h2 h3)
  | outInt h => exact .outInt (h.mono h1 h2 h3)
  | outMany h => exact .outMany (h.mono h1 h2 h3)

theorem Same.fits {i : Instr} {s : Stmt} (h : Same strs sets E i s) : s.Fits := by
  cases h <;> (rename_i h; exact h.2.1)

theorem Closed.at {x : X} {e : Expr} (h : Closed strs sets E x e) {c : Ctx} (hc : Cons c strs sets E) :
    meaning c e noVars = xmeaning c x noNames ∧ (XClean c x noNames → Clean c e noVars) :=
  h.1 c hc noNames noVars (fun _ _ h => by cases h)

theorem columns_eq {c : Ctx} (hc : Cons c strs sets E) {f : Template} {ss : List Stmt} (h : List.Forall₂ (Same strs sets E) f ss) : columns c ss = xcolumns c f := by
  induction h with
  | nil => rfl
  | cons hs _ ih =>
    cases hs with
    | pred h => simp only [columns, xcolumns, (h.at hc).1, ih]; rfl
    | outStr h => simp only [columns, xcolumns, (h.at hc).1, ih]; rfl
    | outBool h => simp only [columns, xcolumns, (h.at hc).1, ih]; rfl
    | outInt h => simp only [columns, xcolumns, (h.at hc).1, ih]; rfl
    | outMany h => simp only [columns, xcolumns, (h.at hc).1, ih]; rfl

theorem Same.clean {c : Ctx} (hc : Cons c strs sets E) {i : Instr} {s : Stmt} (h : Same strs sets E i s) (hi : i.Clean c) : s.Clean c := by
  cases h with
  | @pred x e h =>
    have hcl := (h.at hc).2
    cases x with
    | and x' =>
      have hi : XClean c x' noNames := hi
      rcases h.2.2 x' rfl with ⟨e', rfl, hm⟩ | ⟨k, rfl⟩
      · exact (hm c hc noNames noVars (fun _ _ h => by cases h)).2 hi
      · trivial
    | _ =>
      have hcl := hcl hi
      cases e with
      | and e' => exact hcl.1
      | _ => exact hcl
  | outStr h => exact (h.at hc).2 hi
  | outBool h => exact (h.at hc).2 hi
  | outInt h => exact (h.at hc).2 hi
  | outMany h => exact (h.at hc).2 hi

theorem cleanFeat_of {c : Ctx} (hc : Cons c strs sets E) {f : Template} {ss : List Stmt} (h : List.Forall₂ (Same strs sets E) f ss) (hf : XCleanFeat c f) : CleanFeat c ss := by
  induction h with
  | nil => trivial
  | cons hs _ ih =>
    refine ⟨hs.clean hc hf.1, fun hne => ih (hf.2 ?_)⟩
    rwa [columns_eq hc (.cons hs .nil)] at hne

theorem forall2_mono {f : Template} {ss : List Stmt} (h : List.Forall₂ (Same strs sets E) f ss) (h1 : strs <+: strs') (h2 : sets <+: sets') (h3 : E <+: E') :
    List.Forall₂ (Same strs' sets' E') f ss := by
  induction h with
  | nil => exact .nil
  | cons hs _ ih => exact .cons (hs.mono h1 h2 h3) ih

end

theorem Sem.closed {cat : Cat} {t t' : T} {E' : List Expr} {x : X} {e : Expr} {k : Nat} (h : Sem [] cat t t' E' x e k) : Closed t'.strs t'.sets E' x e := by
  have hr : rho [] t = fun _ => none := by funext v; simp [rho]
  exact ⟨hr ▸ h.means, h.fits, fun x' hx => hr ▸ h.conj x' hx⟩

/-! ### Which elements an expression begins with -/

theorem W.headName {D : Scope} {κ : Bool} {Γ : List Text} {lp : Bool} {ty : Ty} {x : X} {ns : List Node} {k : Nat} (h : W D κ Γ lp (.ty ty) x ns k) {n : Node} {r : List Node}
    (hq : ns = n :: r) : n.name ∈ elemsOf ty ∨ (n.name = t!"macro" ∧ D.calls = true) ∨ (n.name = t!"var" ∧ Γ ≠ []) := by
  generalize hc : Cat.ty ty = cat at h
  cases h with
  | leaf o ns hb =>
    cases hc
    subst hq
    rw [hb.start.1.1]
    exact .inl (by cases o <;> decide)
  | int i ns hb => cases hc; subst hq; rw [hb.start.1.1]; exact .inl (by decide)
  | var v ns hv hb => subst hq; exact .inr (.inr ⟨hb.start.1.1, by rintro rfl; cases hv⟩)
  | un o n g g' e hw hs => cases hc; cases hq; rw [hs.1]; exact .inl (by cases o <;> decide)
  | bin o n g g' g'' e hw hw' hs =>
    cases hc; cases hq; rw [hs.1]
    refine .inl ?_
    rcases o with _ | _ | _ | o <;> first | decide | (cases o <;> decide)
  | one hw => cases hc
  | more g hw hg hw' => cases hc
  | and n g g' e hw hs => cases hc; cases hq; rw [hs.1]; exact .inl (by decide)
  | or n g g' e hw hs => cases hc; cases hq; rw [hs.1]; exact .inl (by decide)
  | streq s n g g' e hw hs => cases hc; cases hq; rw [hs.1]; exact .inl (by decide)
  | set o l n g g' e hw hs => cases hc; cases hq; rw [hs.1]; exact .inl (by cases o <;> decide)
  | join s n g g' e hw hs => cases hc; cases hq; rw [hs.1]; exact .inl (by decide)
  | slice b e n g g' z ht hw hs => cases hc; cases hq; rw [hs.1]; exact .inl (by rcases ht with rfl | rfl | rfl <;> decide)
  | subscript w i n g g' e hw hs => cases hc; cases hq; rw [hs.1]; exact .inl (by cases w <;> decide)
  | forEach w v n g g' g'' e _ _ _ _ _ _ hs => cases hc; cases hq; rw [hs.1]; exact .inl (by cases w <;> decide)
  | call m ty x n g e hcl _ hs => cases hc; cases hq; exact .inr (.inl ⟨hs.1, hcl⟩)

theorem elems_disjoint : (∀ y ∈ elemsOf .bool, y ∉ elemsOf .str ∧ y ∉ elemsOf .int ∧ y ≠ t!"var" ∧ y ≠ t!"macro") ∧
    (∀ y ∈ elemsOf .int, y ∉ elemsOf .str ∧ y ∉ elemsOf .bool ∧ y ≠ t!"var" ∧ y ≠ t!"macro") := by decide

/-! ### Instructions -/

section
variable {D : Scope} {κ : Bool} {M : List Expr}

/-- An instruction is read. -/
def IReads (i : Instr) (D : Scope) (κ : Bool) (M : List Expr) (ns : List Node) : Prop :=
  ∀ t E, Pre D κ M [] true t E → Room t ns → ∃ s t' E', Pre D κ M [] true t' E' ∧ Tab [] true t t' E E' ns ∧ Same t'.strs t'.sets E' i s ∧
    ∀ f g m tl code n r, ns = n :: r → ns.length ≤ f → Gap g → Stop m → call (proc f) .void ⟨n, r ++ (g ++ m :: tl), code, t⟩ = .ok ⟨m, tl, code ++ s.compile, t'⟩

theorem out_step {ns : List Node} {t t' : T} {cs : List Cell} {n z : Node} {g g' h' : List Node} {m : Node} {tl : List Node} {code : List Cell} {f : Nat} {a : Node} {r : List Node}
    (hns : ns = a :: r) (hat : isText a = false) (hs : Start t!"out" n) (hz : End t!"out" z) (hg : Gap g) (hh : Gap h') (hm : Stop m)
    (hrd : outKind (proc f) ⟨a, r ++ (g' ++ z :: (h' ++ m :: tl)), code, t⟩ = .ok ⟨z, h' ++ m :: tl, code ++ cs, t'⟩) :
    call (proc (f + 1)) .void ⟨n, (g ++ ns ++ g' ++ [z]) ++ (h' ++ m :: tl), code, t⟩ = .ok ⟨m, tl, code ++ cs, t'⟩ := by
  have hnt := isText_name hs.1 (show t!"out" ≠ t!"#text" by decide) (by decide)
  have hzt := isText_name hz.1 (show t!"out" ≠ t!"#text" by decide) (by decide)
  have e1 : (g ++ ns ++ g' ++ [z]) ++ (h' ++ m :: tl) = g ++ (ns ++ (g' ++ z :: (h' ++ m :: tl))) := by simp
  have e2 : procOut (proc f) ⟨n, g ++ (ns ++ (g' ++ z :: (h' ++ m :: tl))), code, t⟩ = .ok ⟨m, tl, code ++ cs, t'⟩ := by
    rw [procOut, enter hnt hg hns hat]
    simp only [Outcome.bind_ok, hrd, toTag_tag hzt, atEnd_end hz, nextTag_gap hzt hh hm.1]
  rw [e1, Mtx.call, proc]
  simp only [procVoid, toTag_tag hnt, Outcome.bind_ok]
  simp [hs.1, e2, done]

theorem void_un {ns : List Node} {x : Text} {ty : Ty} {o : Op} (hx : (x = t!"pred" ∧ ty = .bool ∧ o = .dieiffalse) ∨ (x = t!"out-many" ∧ ty = .strs ∧ o = .fcatstrarr)) {t t' : T} {e : Expr}
    (h : Reads (.ty ty) ns t e t') {n z : Node} {g g' h' : List Node} {m : Node} {tl : List Node} {code : List Cell} {f : Nat} {a : Node} {r : List Node}
    (hns : ns = a :: r) (hat : isText a = false) (hf : ns.length ≤ f) (hs : Start x n) (hz : End x z) (hg : Gap g) (hg' : Gap g') (hh : Gap h') (hm : Stop m) :
    call (proc (f + 1)) .void ⟨n, (g ++ ns ++ g' ++ [z]) ++ (h' ++ m :: tl), code, t⟩ = .ok ⟨m, tl, code ++ (compile e ++ [.op o]), t'⟩ := by
  have hx' : x ∉ bareNames ∧ x ≠ t!"#text" ∧ x ≠ t!"#comment" := by rcases hx with ⟨rfl, _, _⟩ | ⟨rfl, _, _⟩ <;> decide
  have hnt := isText_name hs.1 hx'.2.1 hx'.2.2
  have hu := un_reads h hns hat hf hx'.1 hx'.2.1 hx'.2.2 hs hz hg hg' hh hm tl code [.op o] (chk := S.atEnd x) (fun r code t => atEnd_end hz r code t)
  rw [Mtx.call, proc]
  simp only [procVoid, toTag_tag hnt, Outcome.bind_ok]
  simp only [List.append_assoc, List.cons_append, List.nil_append] at hu ⊢
  rcases hx with ⟨rfl, rfl, rfl⟩ | ⟨rfl, rfl, rfl⟩ <;> simp [hs.1, hu, done]

theorem WInstr.read {i : Instr} {ns : List Node} (h : WInstr D κ i ns) : IReads i D κ M ns := by
  intro t E hp hr
  cases h with
  | pred n g g' z hw hs hg hg' hz =>
    rename_i x ns k
    obtain ⟨e, t', E', hp', ht, hsem, hrd⟩ := hw.read (M := M) t E hp (hr.weaken (fun xs => tally_wrap xs ns n z g g'))
    obtain ⟨a, r, hns, ha, hat⟩ := hw.head
    refine ⟨.pred e, t', E', hp', ht.weaken (fun xs => tally_wrap xs ns n z g g'), .pred hsem.closed, ?_⟩
    intro f h' m tl code n' r' hq hf hh hm
    cases hq
    obtain ⟨f, rfl⟩ : ∃ f', f = f' + 1 := ⟨f - 1, by simp at hf; omega⟩
    exact void_un (.inl ⟨rfl, rfl, rfl⟩) hrd hns hat (by simp at hf; omega) hs hz hg hg' hh hm
  | outMany n g g' z hw hs hg hg' hz =>
    rename_i x ns k
    obtain ⟨e, t', E', hp', ht, hsem, hrd⟩ := hw.read (M := M) t E hp (hr.weaken (fun xs => tally_wrap xs ns n z g g'))
    obtain ⟨a, r, hns, ha, hat⟩ := hw.head
    refine ⟨.outMany e, t', E', hp', ht.weaken (fun xs => tally_wrap xs ns n z g g'), .outMany hsem.closed, ?_⟩
    intro f h' m tl code n' r' hq hf hh hm
    cases hq
    obtain ⟨f, rfl⟩ : ∃ f', f = f' + 1 := ⟨f - 1, by simp at hf; omega⟩
    exact void_un (.inr ⟨rfl, rfl, rfl⟩) hrd hns hat (by simp at hf; omega) hs hz hg hg' hh hm
  | outStr n g g' z hw hs hg hg' hz =>
    rename_i x ns k
    obtain ⟨e, t', E', hp', ht, hsem, hrd⟩ := hw.read (M := M) t E hp (hr.weaken (fun xs => tally_wrap xs ns n z g g'))
    obtain ⟨a, r, hns, ha, hat⟩ := hw.head
    refine ⟨.outStr e, t', E', hp', ht.weaken (fun xs => tally_wrap xs ns n z g g'), .outStr hsem.closed, ?_⟩
    intro f h' m tl code n' r' hq hf hh hm
    cases hq
    obtain ⟨f, rfl⟩ : ∃ f', f = f' + 1 := ⟨f - 1, by simp at hf; omega⟩
    refine out_step hns hat hs hz hg hh hm ?_
    rw [outKind, hrd f true g' z _ code a r hns (by simp at hf; omega) hg' (Stop.ending hz (by decide) (by decide) (by decide))]
    simp [S.emit, Stmt.compile]
  | outBool n g g' z hw hnm hs hg hg' hz =>
    rename_i x ns k
    obtain ⟨e, t', E', hp', ht, hsem, hrd⟩ := hw.read (M := M) t E hp (hr.weaken (fun xs => tally_wrap xs ns n z g g'))
    obtain ⟨a, r, hns, ha, hat⟩ := hw.head
    refine ⟨.outBool e, t', E', hp', ht.weaken (fun xs => tally_wrap xs ns n z g g'), .outBool hsem.closed, ?_⟩
    intro f h' m tl code n' r' hq hf hh hm
    cases hq
    obtain ⟨f, rfl⟩ : ∃ f', f = f' + 1 := ⟨f - 1, by simp at hf; omega⟩
    refine out_step hns hat hs hz hg hh hm ?_
    have hname : a.name ∈ elemsOf .bool := by
      rcases hw.headName hns with h | ⟨h, _⟩ | ⟨_, h⟩
      · exact h
      · exact absurd ⟨a, r, hns, h⟩ hnm
      · exact absurd rfl h
    have hd := elems_disjoint.1 _ hname
    obtain ⟨f, rfl⟩ : ∃ f', f = f' + 1 := ⟨f - 1, by simp at hf; omega⟩
    rw [outKind, proc_other (by decide) (by decide) hat hd.2.2.1 hd.2.2.2 hd.1]
    simp only [Outcome.bind_ok, Bool.false_eq_true, if_false]
    rw [hrd (f + 1) true g' z _ code a r hns (by simp at hf; omega) hg' (Stop.ending hz (by decide) (by decide) (by decide))]
    simp [S.emit, Stmt.compile]
  | outInt n g g' z hw hnm hs hg hg' hz =>
    rename_i x ns k
    obtain ⟨e, t', E', hp', ht, hsem, hrd⟩ := hw.read (M := M) t E hp (hr.weaken (fun xs => tally_wrap xs ns n z g g'))
    obtain ⟨a, r, hns, ha, hat⟩ := hw.head
    refine ⟨.outInt e, t', E', hp', ht.weaken (fun xs => tally_wrap xs ns n z g g'), .outInt hsem.closed, ?_⟩
    intro f h' m tl code n' r' hq hf hh hm
    cases hq
    obtain ⟨f, rfl⟩ : ∃ f', f = f' + 1 := ⟨f - 1, by simp at hf; omega⟩
    refine out_step hns hat hs hz hg hh hm ?_
    have hname : a.name ∈ elemsOf .int := by
      rcases hw.headName hns with h | ⟨h, _⟩ | ⟨_, h⟩
      · exact h
      · exact absurd ⟨a, r, hns, h⟩ hnm
      · exact absurd rfl h
    have hd := elems_disjoint.2 _ hname
    obtain ⟨f, rfl⟩ : ∃ f', f = f' + 1 := ⟨f - 1, by simp at hf; omega⟩
    rw [outKind, proc_other (by decide) (by decide) hat hd.2.2.1 hd.2.2.2 hd.1]
    simp only [Outcome.bind_ok, Bool.false_eq_true, if_false]
    rw [proc_other (by decide) (by decide) hat hd.2.2.1 hd.2.2.2 hd.2.1]
    simp only [Outcome.bind_ok, Bool.false_eq_true, if_false]
    rw [hrd (f + 1) true g' z _ code a r hns (by simp at hf; omega) hg' (Stop.ending hz (by decide) (by decide) (by decide))]
    simp [S.emit, Stmt.compile]

theorem WInstr.head {i : Instr} {ns : List Node} (h : WInstr D κ i ns) : ∃ n r, ns = n :: r ∧ n.isEnd = false ∧ isText n = false := by
  cases h with
  | pred n g g' z _ hs => exact ⟨n, _, rfl, hs.2, isText_name hs.1 (by decide) (by decide)⟩
  | outStr n g g' z _ hs => exact ⟨n, _, rfl, hs.2, isText_name hs.1 (by decide) (by decide)⟩
  | outBool n g g' z _ _ hs => exact ⟨n, _, rfl, hs.2, isText_name hs.1 (by decide) (by decide)⟩
  | outInt n g g' z _ _ hs => exact ⟨n, _, rfl, hs.2, isText_name hs.1 (by decide) (by decide)⟩
  | outMany n g g' z _ hs => exact ⟨n, _, rfl, hs.2, isText_name hs.1 (by decide) (by decide)⟩

/-! ### Templates -/

/-- The first node of what is written in a row, with what comes after it. -/
theorem Row.first {α : Type} {R : α → List Node → Prop} (hR : ∀ a ns, R a ns → ∃ n r, ns = n :: r ∧ n.isEnd = false ∧ isText n = false) {as : List α} {ns : List Node} (h : Row R as ns)
    {z : Node} (hz : Stop z) (tl : List Node) : ∃ b q, ns ++ z :: tl = b :: q ∧ Stop b ∧ ((as = [] ∧ b = z ∧ q = tl) ∨ (as ≠ [] ∧ b.isEnd = false)) := by
  cases h with
  | nil => exact ⟨z, tl, rfl, hz, .inl ⟨rfl, rfl, rfl⟩⟩
  | cons g ha hg hr =>
    obtain ⟨n, r, rfl, h1, h2⟩ := hR _ _ ha
    exact ⟨n, _, rfl, Stop.start h1 h2, .inr ⟨by simp, h1⟩⟩

theorem Row.featLoop {f : Template} {ns : List Node} (h : Row (WInstr D κ) f ns) : ∀ t E, Pre D κ M [] true t E → Room t ns → ∃ ss t' E', Pre D κ M [] true t' E' ∧
    Tab [] true t t' E E' ns ∧ List.Forall₂ (Same t'.strs t'.sets E') f ss ∧
    ∀ fuel F z tl code n r, Stop z → z.isEnd = true → ns ++ z :: tl = n :: r → ns.length ≤ fuel → ns.length < F →
      featLoop fuel F ⟨n, r, code, t⟩ = .ok ⟨z, tl, code ++ compileFeat ss, t'⟩ := by
  induction h with
  | nil =>
    intro t E hp hr
    refine ⟨[], t, E, hp, Tab.refl _ _ _ _ _, .nil, ?_⟩
    intro fuel F z tl code n r hz hze hq hf hF
    cases hq
    obtain ⟨F, rfl⟩ : ∃ F', F = F' + 1 := ⟨F - 1, by omega⟩
    simp [Mtx.featLoop, hze, compileFeat]
  | @cons i f ns ms g hi hg hrow ih =>
    intro t E hp hr
    have hw (xs : List Text) : tally xs ns + tally xs ms ≤ tally xs (ns ++ g ++ ms) := by simp only [tally_append]; omega
    obtain ⟨s, t1, E1, hp1, ht1, hs1, hrd1⟩ := hi.read (M := M) t E hp (hr.weaken (fun xs => by have := hw xs; omega))
    obtain ⟨ss, t2, E2, hp2, ht2, hs2, hrd2⟩ := ih t1 E1 hp1 (hr.after ht1.spent hw)
    refine ⟨s :: ss, t2, E2, hp2, ht1.trans ht2 hw, .cons (hs1.mono ht2.strs ht2.sets ht2.glob) hs2, ?_⟩
    intro fuel F z tl code n r hz hze hq hf hF
    obtain ⟨a, q, rfl, ha, hat⟩ := hi.head
    obtain ⟨b, q', hbq, hb, _⟩ := hrow.first (fun _ _ h => h.head) hz tl
    simp only [List.cons_append, List.append_assoc, List.cons.injEq] at hq
    obtain ⟨rfl, rfl⟩ := hq
    obtain ⟨F, rfl⟩ : ∃ F', F = F' + 1 := ⟨F - 1, by omega⟩
    rw [Mtx.featLoop, hbq]
    simp only [ha, Bool.false_eq_true, if_false]
    rw [hrd1 fuel g b q' code a q rfl (by simp at hf ⊢; omega) hg hb]
    simp only [Outcome.bind_ok]
    rw [hrd2 fuel F z tl _ b q' hz hze hbq (by simp at hf; omega) (by simp at hF; omega)]
    simp [compileFeat]

/-- What the rest of the file does to the tables. -/
structure Grow (t t' : T) (E E' : List Expr) (ns : List Node) : Prop where
  strs : t.strs <+: t'.strs
  sets : t.sets <+: t'.sets
  glob : E <+: E'
  spent : Spent t t' ns

theorem Tab.grow {Γ : List Text} {lp : Bool} {t t' : T} {E E' : List Expr} {ns : List Node} (h : Tab Γ lp t t' E E' ns) : Grow t t' E E' ns := ⟨h.strs, h.sets, h.glob, h.spent⟩

theorem Grow.refl (t : T) (E : List Expr) (ns : List Node) : Grow t t E E ns := ⟨List.prefix_refl _, List.prefix_refl _, List.prefix_refl _, Spent.refl t ns⟩

theorem Grow.trans {t t' t'' : T} {E E' E'' : List Expr} {ns ms os : List Node} (h : Grow t t' E E' ns) (h' : Grow t' t'' E' E'' ms) (hm : ∀ xs, tally xs ns + tally xs ms ≤ tally xs os) :
    Grow t t'' E E'' os := ⟨h.strs.trans h'.strs, h.sets.trans h'.sets, h.glob.trans h'.glob, h.spent.trans h'.spent hm⟩

theorem Grow.weaken {t t' : T} {E E' : List Expr} {ns ms : List Node} (h : Grow t t' E E' ns) (hm : ∀ xs, tally xs ns ≤ tally xs ms) : Grow t t' E E' ms :=
  ⟨h.strs, h.sets, h.glob, h.spent.weaken hm⟩

theorem Pre.reset {Γ : List Text} {lp : Bool} {t : T} {E : List Expr} (h : Pre D κ M Γ lp t E) : Pre D κ M [] true { t with slot := 0 } E :=
  { h with var := (fun v hv => by cases hv), loops := fun _ => Nat.zero_le _ }

theorem WFeat.read {f : Template} {ns : List Node} (h : WFeat D κ f ns) : ∀ t E, Pre D κ M [] true t E → Room t ns → ∃ ss t' E', Pre D κ M [] true t' E' ∧
    Grow t t' E E' ns ∧ List.Forall₂ (Same t'.strs t'.sets E') f ss ∧ t'.features = t.features ++ [compileFeat ss] ∧ t'.globalPred = t.globalPred ∧ t'.coarse = t.coarse ∧
    ∀ fuel g m tl code n r, ns = n :: r → ns.length ≤ fuel → Gap g → Stop m → procFeat fuel ⟨n, r ++ (g ++ m :: tl), code, t⟩ = .ok ⟨m, tl, compileFeat ss, t'⟩ := by
  intro t E hp hr
  cases h with
  | mk n g z hrow hs hg hz =>
    rename_i ns
    have hw (xs : List Text) : tally xs ns ≤ tally xs (n :: (g ++ ns ++ [z])) := by
      rw [tally_cons]; simp only [tally_append]; omega
    have hp0 := hp.reset
    obtain ⟨ss, t1, E1, hp1, ht1, hs1, hrd1⟩ := hrow.featLoop (M := M) { t with slot := 0 } E hp0 (show Room t ns from hr.weaken hw)
    have hst := ht1.static
    have hfe : t1.features = t.features := by have := congrArg T.features hst; exact this
    have hgp : t1.globalPred = t.globalPred := by have := congrArg T.globalPred hst; exact this
    have hco : t1.coarse = t.coarse := by have := congrArg T.coarse hst; exact this
    refine ⟨ss, { t1 with features := t1.features ++ [compileFeat ss] }, E1, { hp1 with }, ?_, hs1, by rw [hfe], hgp, hco, ?_⟩
    · obtain ⟨a, b, c, d⟩ := ht1.grow
      exact ⟨a, b, c, d.weaken hw⟩
    · intro fuel h' m tl code n' r' hq hf hh hm
      cases hq
      have hnt := isText_name hs.1 (show t!"feat" ≠ t!"#text" by decide) (by decide)
      have hzt := isText_name hz.1 (show t!"feat" ≠ t!"#text" by decide) (by decide)
      have hzs : Stop z := Stop.ending hz (by decide) (by decide) (by decide)
      obtain ⟨b, q, hbq, hb, _⟩ := hrow.first (fun _ _ h => h.head) hzs (h' ++ m :: tl)
      have e1 : g ++ ns ++ [z] ++ (h' ++ m :: tl) = g ++ b :: q := by rw [← hbq]; simp
      rw [procFeat, e1, nextTag_gap hnt hg hb.1]
      simp only [Outcome.bind_ok]
      rw [hrd1 fuel _ z (h' ++ m :: tl) [] b q hzs hz.2 hbq (by simp at hf; omega)]
      · simp only [Outcome.bind_ok, atEnd_end hz, List.nil_append]
        exact nextTag_gap hzt hh hm.1 _ _ _
      · have := congrArg List.length hbq
        simp at this ⊢
        omega

theorem WFeat.head {f : Template} {ns : List Node} (h : WFeat D κ f ns) : ∃ n r, ns = n :: r ∧ n.isEnd = false ∧ isText n = false := by
  cases h with
  | mk n g z hrow hs hg hz => exact ⟨n, _, rfl, hs.2, isText_name hs.1 (by decide) (by decide)⟩

theorem WFeat.name {f : Template} {n : Node} {r : List Node} (h : WFeat D κ f (n :: r)) : n.name = t!"feat" := by
  generalize hq : n :: r = ns at h
  cases h with
  | mk n g z hrow hs hg hz => cases hq; exact hs.1

theorem Row.featsLoop {fs : List Template} {ns : List Node} (h : Row (WFeat D κ) fs ns) : ∀ t E, Pre D κ M [] true t E → Room t ns → ∃ sss t' E', Pre D κ M [] true t' E' ∧
    Grow t t' E E' ns ∧ List.Forall₂ (List.Forall₂ (Same t'.strs t'.sets E')) fs sss ∧ t'.features = t.features ++ sss.map compileFeat ∧ t'.globalPred = t.globalPred ∧
    t'.coarse = t.coarse ∧ ∀ fuel F z tl code n r, Stop z → z.isEnd = true → ns ++ z :: tl = n :: r → ns.length ≤ fuel → ns.length < F →
      ∃ code', featsLoop fuel F ⟨n, r, code, t⟩ = .ok ⟨z, tl, code', t'⟩ := by
  induction h with
  | nil =>
    intro t E hp hr
    refine ⟨[], t, E, hp, Grow.refl _ _ _, .nil, by simp, rfl, rfl, ?_⟩
    intro fuel F z tl code n r hz hze hq hf hF
    cases hq
    obtain ⟨F, rfl⟩ : ∃ F', F = F' + 1 := ⟨F - 1, by omega⟩
    exact ⟨code, by simp [Mtx.featsLoop, hze]⟩
  | @cons i f ns ms g hi hg hrow ih =>
    intro t E hp hr
    have hw (xs : List Text) : tally xs ns + tally xs ms ≤ tally xs (ns ++ g ++ ms) := by simp only [tally_append]; omega
    obtain ⟨s, t1, E1, hp1, ht1, hs1, hf1, hg1, hc1, hrd1⟩ := hi.read (M := M) t E hp (hr.weaken (fun xs => by have := hw xs; omega))
    obtain ⟨ss, t2, E2, hp2, ht2, hs2, hf2, hg2, hc2, hrd2⟩ := ih t1 E1 hp1 (hr.after ht1.spent hw)
    refine ⟨s :: ss, t2, E2, hp2, ht1.trans ht2 hw, .cons (forall2_mono hs1 ht2.strs ht2.sets ht2.glob) hs2, by rw [hf2, hf1]; simp, hg2.trans hg1, hc2.trans hc1, ?_⟩
    intro fuel F z tl code n r hz hze hq hf hF
    obtain ⟨a, q, rfl, ha, hat⟩ := hi.head
    obtain ⟨b, q', hbq, hb, _⟩ := hrow.first (fun _ _ h => h.head) hz tl
    simp only [List.cons_append, List.append_assoc, List.cons.injEq] at hq
    obtain ⟨rfl, rfl⟩ := hq
    obtain ⟨F, rfl⟩ : ∃ F', F = F' + 1 := ⟨F - 1, by omega⟩
    obtain ⟨code', hc'⟩ := hrd2 fuel F z tl (compileFeat s) b q' hz hze hbq (by simp at hf; omega) (by simp at hF; omega)
    refine ⟨code', ?_⟩
    rw [Mtx.featsLoop, hbq]
    simp only [ha, Bool.false_eq_true, if_false, hi.name, if_true]
    rw [hrd1 fuel g b q' code a q rfl (by simp at hf ⊢; omega) hg hb]
    simp only [Outcome.bind_ok]
    exact hc'

end

end Verif.Mtx
