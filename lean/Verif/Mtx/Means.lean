import Verif.Mtx.Spec
/-!
# Expressions with numbers and expressions with names
-/
namespace Verif.Mtx
open Verif.VM (Ctx Val Str Cell Op Env Expr upd meaning Clean Fits slotsOf compile operandCount intByte elems collect bools one each noVars strOperand)

def Leaf.expr : Leaf → Expr
  | .sentlen => .sentlen
  | .pathlen => .pathlen
  | .tokaddr => .tokaddr
  | .wrdidx => .wrdidx
  | .wrdaddr => .wrdaddr

def Un.expr : Un → Expr → Expr
  | .not => .not
  | .adjust => .adjust
  | .clamp => .clamp
  | .wordoid => .wordoid
  | .surf => .surf
  | .lem => .lem
  | .coarse => .coarse
  | .tags => .tags
  | .ambgset => .ambgset
  | .wordoids => .wordoids

def Un.op : Un → Op
  | .not => .not
  | .adjust => .adjaddr
  | .clamp => .clampaddr
  | .wordoid => .getwrd
  | .surf => .extoksurf
  | .lem => .exwrdlemma
  | .coarse => .exwrdcoarsetag
  | .tags => .extags
  | .ambgset => .exambgset
  | .wordoids => .exwrdarr

def Bin.expr : Bin → Expr → Expr → Expr
  | .add => .add
  | .addAddr => .addAddr
  | .ints => .seq
  | .cmp o => .cmp o

def Bin.ops : Bin → List Cell
  | .add => [.op .add]
  | .addAddr => [.op .add2]
  | .ints => []
  | .cmp o => [.op o.op]

def SetTest.expr : SetTest → Nat → Expr → Expr
  | .strin => .strin
  | .any => .sethasany
  | .all => .sethasall

def SetTest.op : SetTest → Op
  | .strin => .strin
  | .any => .sethasany
  | .all => .sethasall

/-- The constants and globals of the context begin with these. -/
def Cons (c : Ctx) (strs : List Text) (sets : List (List Text)) (E : List Expr) : Prop :=
  (∀ (i : Nat) (s : Text), strs[i]? = some s → c.strConsts[i]? = some (c.enc s)) ∧ (∀ (i : Nat) (l : List Text), sets[i]? = some l → c.setConsts[i]? = some (l.map c.enc)) ∧
    ∀ (k : Nat) (e : Expr), E[k]? = some e → ∃ v, c.globals[k]? = some v ∧ meaning { c with globals := [] } e noVars = some [v]

/-- The numbered expression `e` means what `x` means; `ρ` are the slots of the variables. -/
def Means (strs : List Text) (sets : List (List Text)) (E : List Expr) (ρ : Text → Option Nat) (x : X) (e : Expr) : Prop :=
  ∀ c, Cons c strs sets E → ∀ (nenv : NEnv) (env : Env), (∀ v k, ρ v = some k → env k = nenv v) → meaning c e env = xmeaning c x nenv ∧ (XClean c x nenv → Clean c e env)

theorem prefix_get {α : Type} {l l' : List α} (h : l <+: l') {i : Nat} {a : α} (hi : l[i]? = some a) : l'[i]? = some a := by
  obtain ⟨r, rfl⟩ := h
  rw [List.getElem?_append_left (by rw [List.getElem?_eq_some_iff] at hi; exact hi.1), hi]

theorem Cons.mono {c : Ctx} {strs strs' : List Text} {sets sets' : List (List Text)} {E E' : List Expr} (h : Cons c strs' sets' E') (h1 : strs <+: strs') (h2 : sets <+: sets')
    (h3 : E <+: E') : Cons c strs sets E :=
  ⟨fun i s hi => h.1 i s (prefix_get h1 hi), fun i s hi => h.2.1 i s (prefix_get h2 hi), fun i s hi => h.2.2 i s (prefix_get h3 hi)⟩

theorem Means.mono {strs strs' : List Text} {sets sets' : List (List Text)} {E E' : List Expr} {ρ : Text → Option Nat} {x : X} {e : Expr} (h : Means strs sets E ρ x e)
    (h1 : strs <+: strs') (h2 : sets <+: sets') (h3 : E <+: E') : Means strs' sets' E' ρ x e :=
  fun c hc nenv env ha => h c (hc.mono h1 h2 h3) nenv env ha

section
variable {strs : List Text} {sets : List (List Text)} {E : List Expr} {ρ : Text → Option Nat}

theorem Means.leaf (o : Leaf) : Means strs sets E ρ (.leaf o) o.expr := by
  intro c hc nenv env ha
  cases o <;> simp [Leaf.expr, meaning, xmeaning, Leaf.val, Clean]

theorem Means.int (i : Int) : Means strs sets E ρ (.int i) (.lit i) := by
  intro c hc nenv env ha
  simp [meaning, xmeaning, Clean]

theorem Means.var {v : Text} {k : Nat} (h : ρ v = some k) : Means strs sets E ρ (.var v) (.var k) := by
  intro c hc nenv env ha
  simp [meaning, xmeaning, Clean, ha v k h]

theorem Means.un (o : Un) {x : X} {e : Expr} (h : Means strs sets E ρ x e) : Means strs sets E ρ (.un o x) (o.expr e) := by
  intro c hc nenv env ha
  obtain ⟨h1, h2⟩ := h c hc nenv env ha
  refine ⟨?_, ?_⟩
  · cases o <;> simp only [Un.expr, meaning, xmeaning, h1] <;>
      (cases xmeaning c x nenv with
        | none => rfl
        | some l => simp only [Option.bind_some]; unfold Un.val; split <;> simp_all)
  · cases o <;> simpa [Un.expr, Clean, XClean] using h2

theorem Means.bin (o : Bin) {x y : X} {e d : Expr} (h : Means strs sets E ρ x e) (h' : Means strs sets E ρ y d) : Means strs sets E ρ (.bin o x y) (o.expr e d) := by
  intro c hc nenv env ha
  obtain ⟨h1, h2⟩ := h c hc nenv env ha
  obtain ⟨h3, h4⟩ := h' c hc nenv env ha
  refine ⟨?_, ?_⟩
  · cases o <;> simp only [Bin.expr, meaning, xmeaning, h1, h3] <;>
      (cases xmeaning c x nenv with
        | none => simp
        | some l =>
          cases xmeaning c y nenv with
          | none => simp
          | some l' => simp only [Option.bind_some]; unfold Bin.val; split <;> simp_all <;> split <;> simp_all <;> exact absurd rfl (by rename_i hf; exact hf _ _ _ _ rfl rfl rfl))
  · cases o <;> simp only [Bin.expr, Clean, XClean] <;> intro hx
    · exact ⟨h2 hx.1, h4 hx.2.1⟩
    · exact ⟨h2 hx.1, h4 hx.2.1⟩
    · exact ⟨h2 hx.1, h4 hx.2.1⟩
    · exact ⟨h2 hx.1, h4 hx.2.1, hx.2.2 _ rfl⟩

theorem Means.seq {x y : X} {e d : Expr} (h : Means strs sets E ρ x e) (h' : Means strs sets E ρ y d) : Means strs sets E ρ (.seq x y) (.seq e d) := by
  intro c hc nenv env ha
  obtain ⟨h1, h2⟩ := h c hc nenv env ha
  obtain ⟨h3, h4⟩ := h' c hc nenv env ha
  refine ⟨?_, fun hx => ⟨h2 hx.1, h4 hx.2⟩⟩
  simp only [meaning, xmeaning, h1, h3]
  cases xmeaning c x nenv <;> cases xmeaning c y nenv <;> rfl

theorem Means.and {x : X} {e : Expr} (h : Means strs sets E ρ x e) : Means strs sets E ρ (.and x) (.and e) := by
  intro c hc nenv env ha
  obtain ⟨h1, h2⟩ := h c hc nenv env ha
  exact ⟨by simp only [meaning, xmeaning, h1], fun hx => ⟨h2 hx.1, by rw [h1]; exact hx.2⟩⟩

theorem Means.or {x : X} {e : Expr} (h : Means strs sets E ρ x e) : Means strs sets E ρ (.or x) (.or e) := by
  intro c hc nenv env ha
  obtain ⟨h1, h2⟩ := h c hc nenv env ha
  exact ⟨by simp only [meaning, xmeaning, h1], fun hx => ⟨h2 hx.1, by rw [h1]; exact hx.2⟩⟩

theorem Means.streq {s : Text} {k : Nat} (hk : strs[k]? = some s) (hb : k < 255) {x : X} {e : Expr} (h : Means strs sets E ρ x e) : Means strs sets E ρ (.streq s x) (.streq k e) := by
  intro c hc nenv env ha
  obtain ⟨h1, h2⟩ := h c hc nenv env ha
  have hs : strOperand c k = some (c.enc s) := by rw [strOperand, if_neg (by omega), hc.1 k s hk]
  refine ⟨?_, h2⟩
  simp only [meaning, xmeaning, h1, hs]
  split <;> rename_i hq <;> split <;> simp_all

theorem Means.set (o : SetTest) {l : List Text} {k : Nat} (hk : sets[k]? = some l) {x : X} {e : Expr} (h : Means strs sets E ρ x e) :
    Means strs sets E ρ (.set o l x) (o.expr k e) := by
  intro c hc nenv env ha
  obtain ⟨h1, h2⟩ := h c hc nenv env ha
  have hs := hc.2.1 k l hk
  refine ⟨?_, ?_⟩
  · cases o <;> simp only [SetTest.expr, meaning, xmeaning, h1, hs] <;>
      (cases xmeaning c x nenv with
        | none => rfl
        | some l => simp only [Option.bind_some]; unfold SetTest.val; split <;> simp_all)
  · cases o <;> simpa [SetTest.expr, Clean, XClean] using h2

theorem Means.join {s : Option Text} {k : Nat} (hk : (s = none ∧ k = 255) ∨ (∃ u, s = some u ∧ strs[k]? = some u ∧ k < 255)) {x : X} {e : Expr} (h : Means strs sets E ρ x e) :
    Means strs sets E ρ (.join s x) (.join k e) := by
  intro c hc nenv env ha
  obtain ⟨h1, h2⟩ := h c hc nenv env ha
  have hs : strOperand c k = some (sepStr c s) := by
    rcases hk with ⟨rfl, rfl⟩ | ⟨u, rfl, hk, hb⟩
    · rfl
    · rw [strOperand, if_neg (by omega), hc.1 k u hk]; rfl
  refine ⟨?_, fun hx => ⟨h2 hx.1, by rw [h1]; exact hx.2⟩⟩
  simp only [meaning, xmeaning, h1, hs]
  split <;> rename_i hq <;> split <;> simp_all

theorem Means.slice (b z : Int) {x : X} {e : Expr} (h : Means strs sets E ρ x e) : Means strs sets E ρ (.slice b z x) (.slice b z e) := by
  intro c hc nenv env ha
  obtain ⟨h1, h2⟩ := h c hc nenv env ha
  refine ⟨by simp only [meaning, xmeaning, h1]; rfl, fun hx => ⟨h2 hx.1, ?_⟩⟩
  rw [h1]
  intro v n hv hn
  refine hx.2 v n hv ?_
  cases v <;> simp_all [sizeOf]

theorem Means.subscript (i : Nat) {x : X} {e : Expr} (h : Means strs sets E ρ x e) : Means strs sets E ρ (.subscript i x) (.subscript i e) := by
  intro c hc nenv env ha
  obtain ⟨h1, h2⟩ := h c hc nenv env ha
  exact ⟨by simp only [meaning, xmeaning, h1]; rfl, h2⟩

theorem Means.forEach (w : Bool) {v : Text} {k : Nat} {x y : X} {e d : Expr} (h : Means strs sets E ρ x e)
    (h' : Means strs sets E (fun u => if u = v then some k else ρ u) y d) (hk : ∀ u, ρ u ≠ some k) : Means strs sets E ρ (.forEach w v x y) (.forEach w k e d) := by
  intro c hc nenv env ha
  obtain ⟨h1, h2⟩ := h c hc nenv env ha
  have hb (z : Val) : meaning c d (upd env k z) = xmeaning c y (nupd nenv v z) ∧ (XClean c y (nupd nenv v z) → Clean c d (upd env k z)) := by
    refine h' c hc _ _ ?_
    intro u j hj
    by_cases hu : u = v
    · simp only [hu, if_true, Option.some.injEq] at hj
      subst hj
      simp [upd, nupd, hu]
    · simp only [hu, if_false] at hj
      have hne : j ≠ k := by rintro rfl; exact hk u hj
      simp [upd, nupd, hu, hne, ha u j hj]
  have hb1 : (fun z => (meaning c d (upd env k z)).bind one) = fun z => (xmeaning c y (nupd nenv v z)).bind one := by
    funext z
    rw [(hb z).1]
  refine ⟨?_, fun hx => ⟨h2 hx.1, ?_⟩⟩
  · simp only [meaning, xmeaning, h1, hb1]
    rfl
  · rw [h1]
    intro l xs hl hxs
    obtain ⟨h3, h4⟩ := hx.2 l xs hl hxs
    exact ⟨h3, fun z hz => (hb z).2 (h4 z hz)⟩

theorem elems_ctx (c : Ctx) (gs : List Val) (x : X) (env : NEnv) : xmeaning { c with globals := gs } x env = xmeaning c x env := by
  induction x generalizing env with
  | leaf o => cases o <;> rfl
  | int i => rfl
  | var v => rfl
  | un o x ih => simp only [xmeaning, ih]; rfl
  | bin o a b ih1 ih2 => simp only [xmeaning, ih1, ih2]
  | seq a b ih1 ih2 => simp only [xmeaning, ih1, ih2]
  | and x ih => simp only [xmeaning, ih]
  | or x ih => simp only [xmeaning, ih]
  | streq s x ih => simp only [xmeaning, ih]
  | set o l x ih => simp only [xmeaning, ih]
  | join s x ih => simp only [xmeaning, ih]; rfl
  | slice b e x ih => simp only [xmeaning, ih]
  | subscript i x ih => simp only [xmeaning, ih]
  | forEach w v src body ih1 ih2 => simp only [xmeaning, ih1, ih2]

theorem clean_ctx (c : Ctx) (gs : List Val) (x : X) (env : NEnv) : XClean { c with globals := gs } x env ↔ XClean c x env := by
  induction x generalizing env with
  | leaf o => exact Iff.rfl
  | int i => exact Iff.rfl
  | var v => exact Iff.rfl
  | un o x ih => simp only [XClean, ih]
  | bin o a b ih1 ih2 => simp only [XClean, ih1, ih2]
  | seq a b ih1 ih2 => simp only [XClean, ih1, ih2]
  | and x ih => simp only [XClean, ih, elems_ctx]
  | or x ih => simp only [XClean, ih, elems_ctx]
  | streq s x ih => simp only [XClean, ih]
  | set o l x ih => simp only [XClean, ih]
  | join s x ih => simp only [XClean, ih, elems_ctx]
  | slice b e x ih => simp only [XClean, ih, elems_ctx]
  | subscript i x ih => simp only [XClean, ih]
  | forEach w v src body ih1 ih2 => simp only [XClean, ih1, ih2, elems_ctx]

/-- A global stands for a closed expression. -/
theorem Means.gvar {x : X} {e : Expr} {k : Nat} (hk : E[k]? = some e) (h : Means strs sets [] (fun _ => none) x e) : Means strs sets E ρ x (.gvar k) := by
  intro c hc nenv env ha
  obtain ⟨v, hv, hm⟩ := hc.2.2 k e hk
  obtain ⟨h1, _⟩ := h { c with globals := [] } ⟨hc.1, hc.2.1, fun _ _ h => by simp at h⟩ nenv noVars (fun _ _ h => by cases h)
  refine ⟨?_, fun _ => trivial⟩
  rw [elems_ctx, hm] at h1
  simp [meaning, hv, h1]

end

end Verif.Mtx
