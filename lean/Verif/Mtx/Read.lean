import Verif.Mtx.Proc
/-!
# Reading an expression
-/
namespace Verif.Mtx
open Verif.VM (Cell Op Expr compile operandCount slotsOf Fits intByte)
open Verif.Tsx (Node Gap Start End isText mapFind mapSet mapFind_set)

/-! ### Counting elements -/

theorem tally_append (xs : List Text) (a b : List Node) : tally xs (a ++ b) = tally xs a + tally xs b := by simp [tally]

theorem tally_nil (xs : List Text) : tally xs [] = 0 := rfl

theorem tally_cons (xs : List Text) (n : Node) (b : List Node) : tally xs (n :: b) = tally xs [n] + tally xs b := tally_append xs [n] b

theorem tally_start {xs : List Text} {x : Text} {n : Node} (h : Start x n) (hx : x ∈ xs) : tally xs [n] = 1 := by
  simp [tally, h.1, h.2, hx]

/-- What has been added to the tables is not more than there are elements. -/
def Spent (t t' : T) (ns : List Node) : Prop :=
  t'.strs.length ≤ t.strs.length + tally strElems ns ∧ t'.sets.length ≤ t.sets.length + tally setElems ns ∧
    t'.globals.length ≤ t.globals.length + tally [t!"macro"] ns ∧ t'.slotTypes.length ≤ t.slotTypes.length + tally [t!"for-each"] ns

/-- The numbers fit into a byte. -/
def Room (t : T) (ns : List Node) : Prop :=
  t.strs.length + tally strElems ns ≤ 255 ∧ t.sets.length + tally setElems ns ≤ 256 ∧ t.globals.length + tally [t!"macro"] ns ≤ 256 ∧
    t.slotTypes.length + tally [t!"for-each"] ns ≤ 256

theorem Spent.weaken {t t' : T} {ns ms : List Node} (h : Spent t t' ns) (hm : ∀ xs, tally xs ns ≤ tally xs ms) : Spent t t' ms := by
  obtain ⟨h1, h2, h3, h4⟩ := h
  have a := hm strElems; have b := hm setElems; have c := hm [t!"macro"]; have d := hm [t!"for-each"]
  exact ⟨by omega, by omega, by omega, by omega⟩

theorem Room.weaken {t : T} {ns ms : List Node} (h : Room t ms) (hm : ∀ xs, tally xs ns ≤ tally xs ms) : Room t ns := by
  obtain ⟨h1, h2, h3, h4⟩ := h
  have a := hm strElems; have b := hm setElems; have c := hm [t!"macro"]; have d := hm [t!"for-each"]
  exact ⟨by omega, by omega, by omega, by omega⟩

theorem Spent.trans {t t' t'' : T} {ns ms : List Node} (h : Spent t t' ns) (h' : Spent t' t'' ms) {os : List Node} (hm : ∀ xs, tally xs ns + tally xs ms ≤ tally xs os) : Spent t t'' os := by
  obtain ⟨h1, h2, h3, h4⟩ := h
  obtain ⟨g1, g2, g3, g4⟩ := h'
  have a := hm strElems; have b := hm setElems; have c := hm [t!"macro"]; have d := hm [t!"for-each"]
  exact ⟨by omega, by omega, by omega, by omega⟩

theorem Room.after {t t' : T} {ns ms os : List Node} (h : Room t os) (h' : Spent t t' ns) (hm : ∀ xs, tally xs ns + tally xs ms ≤ tally xs os) : Room t' ms := by
  obtain ⟨h1, h2, h3, h4⟩ := h
  obtain ⟨g1, g2, g3, g4⟩ := h'
  have a := hm strElems; have b := hm setElems; have c := hm [t!"macro"]; have d := hm [t!"for-each"]
  exact ⟨by omega, by omega, by omega, by omega⟩

theorem Spent.refl (t : T) (ns : List Node) : Spent t t ns := ⟨by omega, by omega, by omega, by omega⟩

/-! ### The tables -/

/-- The slots of the variables. -/
def rho (Γ : List Text) (t : T) : Text → Option Nat := fun v => if v ∈ Γ then mapFind t.slotNames v else none

/-- What an expression does not change. -/
def static (t : T) : T := { t with strs := [], sets := [], slot := 0, slotNames := [], slotTypes := [], insts := [], globals := [] }

/-- The tables before and after an expression.  `M` are the expressions of the macros, `E` those of the globals. -/
structure Pre (D : Scope) (κ : Bool) (M : List Expr) (Γ : List Text) (lp : Bool) (t : T) (E : List Expr) : Prop where
  str : ∀ n s, look D.strs n = some s → ∃ i : Nat, mapFind t.strNames n = some i ∧ t.strs[i]? = some s
  noMac : D.calls = true → t.inMacro = false
  mac : ∀ n ty x, look D.macros n = some (ty, x) → ty ≠ .addr ∧ ty ≠ .void ∧ ∃ (i : Nat) (m : Macro) (e : Expr), mapFind t.macroNames n = some i ∧ t.macros[i]? = some m ∧
    m.ty = ty ∧ m.repl = [] ∧ M[i]? = some e ∧ m.code = compile e ∧ Means t.strs t.sets [] (fun _ => none) x e
  glob : t.globals = E.map compile
  sub : ∀ e ∈ E, e ∈ M
  inst : ∀ z ∈ t.insts, ∃ (i g : Nat) (e : Expr), z = ((i, []), g) ∧ M[i]? = some e ∧ E[g]? = some e
  args : t.inMacro = true → t.args = []
  var : ∀ v ∈ Γ, ∃ k, mapFind t.slotNames v = some k ∧ k < t.slot ∧ k < t.slotTypes.length
  kinds : ∀ ty ∈ t.slotTypes, ty = elemTy κ
  loops : lp = true → t.slot ≤ t.slotTypes.length

/-- What an expression does to the tables. -/
structure Tab (Γ : List Text) (lp : Bool) (t t' : T) (E E' : List Expr) (ns : List Node) : Prop where
  static : static t' = static t
  strs : t.strs <+: t'.strs
  sets : t.sets <+: t'.sets
  glob : E <+: E'
  types : t.slotTypes <+: t'.slotTypes
  names : ∀ v ∈ Γ, mapFind t'.slotNames v = mapFind t.slotNames v
  slot : t.slot ≤ t'.slot
  noLoop : lp = false → t'.slot = t.slot ∧ t'.slotNames = t.slotNames
  spent : Spent t t' ns

theorem Tab.refl (Γ : List Text) (lp : Bool) (t : T) (E : List Expr) (ns : List Node) : Tab Γ lp t t E E ns :=
  ⟨rfl, List.prefix_refl _, List.prefix_refl _, List.prefix_refl _, List.prefix_refl _, fun _ _ => rfl, Nat.le_refl _, fun _ => ⟨rfl, rfl⟩, Spent.refl t ns⟩

theorem Tab.weaken {Γ : List Text} {lp : Bool} {t t' : T} {E E' : List Expr} {ns ms : List Node} (h : Tab Γ lp t t' E E' ns) (hm : ∀ xs, tally xs ns ≤ tally xs ms) :
    Tab Γ lp t t' E E' ms := { h with spent := h.spent.weaken hm }

theorem Tab.trans {Γ : List Text} {lp : Bool} {t t' t'' : T} {E E' E'' : List Expr} {ns ms os : List Node} (h : Tab Γ lp t t' E E' ns) (h' : Tab Γ lp t' t'' E' E'' ms)
    (hm : ∀ xs, tally xs ns + tally xs ms ≤ tally xs os) : Tab Γ lp t t'' E E'' os where
  static := h'.static.trans h.static
  strs := h.strs.trans h'.strs
  sets := h.sets.trans h'.sets
  glob := h.glob.trans h'.glob
  types := h.types.trans h'.types
  names v hv := (h'.names v hv).trans (h.names v hv)
  slot := Nat.le_trans h.slot h'.slot
  noLoop hl := ⟨(h'.noLoop hl).1.trans (h.noLoop hl).1, (h'.noLoop hl).2.trans (h.noLoop hl).2⟩
  spent := h.spent.trans h'.spent hm

theorem Tab.rho {Γ : List Text} {lp : Bool} {t t' : T} {E E' : List Expr} {ns : List Node} (h : Tab Γ lp t t' E E' ns) : rho Γ t' = rho Γ t := by
  funext v
  simp only [Mtx.rho]
  split
  · rename_i hv; rw [h.names v hv]
  · rfl

/-- What is known of the numbered expression. -/
structure Sem (Γ : List Text) (cat : Cat) (t t' : T) (E' : List Expr) (x : X) (e : Expr) (k : Nat) : Prop where
  means : Means t'.strs t'.sets E' (rho Γ t) x e
  fits : Fits e
  size : match cat with
    | .ty _ => (compile e).length = k
    | .ops => (compile e).length + operandCount e = k
  slots : ∀ i ∈ slotsOf e, t.slot ≤ i ∧ i < t'.slot
  count : cat = .ty .bool → operandCount e = 1
  conj : ∀ x', x = .and x' → (∃ e', e = .and e' ∧ Means t'.strs t'.sets E' (rho Γ t) x' e') ∨ ∃ k, e = .gvar k

/-- The reader reads the expression and stops after it. -/
def Reads : Cat → List Node → T → Expr → T → Prop
  | .ty ty, ns, t, e, t' => ∀ f af g m tl code n r, ns = n :: r → ns.length ≤ f → Gap g → Stop m →
      proc f ty af ⟨n, r ++ (g ++ m :: tl), code, t⟩ = .ok (⟨m, tl, code ++ compile e, t'⟩, true)
  | .ops, ns, t, e, t' => ∀ f F g m tl code n r, ns = n :: r → ns.length ≤ f → ns.length < F → Gap g → Stop m → m.isEnd = true →
      operands (proc f) F ⟨n, r ++ (g ++ m :: tl), code, t⟩ = .ok (⟨m, tl, code ++ compile e, t'⟩, operandCount e)

/-- The first node of an expression. -/
theorem W.head {D : Scope} {κ : Bool} {Γ : List Text} {lp : Bool} {cat : Cat} {x : X} {ns : List Node} {k : Nat} (h : W D κ Γ lp cat x ns k) :
    ∃ n r, ns = n :: r ∧ n.isEnd = false ∧ isText n = false := by
  have bare {y : Text} {p : Node → Prop} {ns : List Node} (hb : Bare y p ns) (h1 : y ≠ t!"#text") (h2 : y ≠ t!"#comment") : ∃ n r, ns = n :: r ∧ n.isEnd = false ∧ isText n = false := by
    cases hb with
    | short n hs hp => exact ⟨n, _, rfl, hs.2, isText_name hs.1 h1 h2⟩
    | long n e hs hp he => exact ⟨n, _, rfl, hs.2, isText_name hs.1 h1 h2⟩
  induction h with
  | leaf o ns hb => cases o <;> exact bare hb (by decide) (by decide)
  | int i ns hb => exact bare hb (by decide) (by decide)
  | var v ns hv hb => exact bare hb (by decide) (by decide)
  | un o n g g' e hw hs => exact ⟨n, _, rfl, hs.2, isText_name hs.1 (by cases o <;> decide) (by cases o <;> decide)⟩
  | bin o n g g' g'' e hw hw' hs =>
    refine ⟨n, _, rfl, hs.2, isText_name hs.1 ?_ ?_⟩
    · rcases o with _ | _ | _ | o <;> first | decide | (cases o <;> decide)
    · rcases o with _ | _ | _ | o <;> first | decide | (cases o <;> decide)
  | one hw ih => exact ih
  | more g hw hg hw' ih ih' =>
    obtain ⟨n, r, rfl, h1, h2⟩ := ih
    exact ⟨n, _, rfl, h1, h2⟩
  | and n g g' e hw hs => exact ⟨n, _, rfl, hs.2, isText_name hs.1 (by decide) (by decide)⟩
  | or n g g' e hw hs => exact ⟨n, _, rfl, hs.2, isText_name hs.1 (by decide) (by decide)⟩
  | streq s n g g' e hw hs => exact ⟨n, _, rfl, hs.2, isText_name hs.1 (by decide) (by decide)⟩
  | set o l n g g' e hw hs => exact ⟨n, _, rfl, hs.2, isText_name hs.1 (by cases o <;> decide) (by cases o <;> decide)⟩
  | join s n g g' e hw hs => exact ⟨n, _, rfl, hs.2, isText_name hs.1 (by decide) (by decide)⟩
  | slice b e n g g' z ht hw hs => exact ⟨n, _, rfl, hs.2, isText_name hs.1 (by decide) (by decide)⟩
  | subscript w i n g g' e hw hs => exact ⟨n, _, rfl, hs.2, isText_name hs.1 (by decide) (by decide)⟩
  | forEach w v n g g' g'' e _ _ _ _ _ _ hs => exact ⟨n, _, rfl, hs.2, isText_name hs.1 (by decide) (by decide)⟩
  | call m ty x n g e _ _ hs => exact ⟨n, _, rfl, hs.2, isText_name hs.1 (by decide) (by decide)⟩

theorem Stop.start {n : Node} (h1 : n.isEnd = false) (h2 : isText n = false) : Stop n := ⟨h2, fun h => by rw [h1] at h; cases h⟩

theorem Stop.ending {x : Text} {z : Node} (h : End x z) (hx : x ∉ bareNames) (h1 : x ≠ t!"#text") (h2 : x ≠ t!"#comment") : Stop z :=
  ⟨isText_name h.1 h1 h2, fun _ => by rw [h.1]; exact hx⟩

/-! ### Elements with parts -/

/-- After the start of an element with one part. -/
theorem enter {n : Node} (hn : isText n = false) {g : List Node} (hg : Gap g) {ns : List Node} {a : Node} {r : List Node} (h : ns = a :: r) (ha : isText a = false) (rest : List Node)
    (code : List Cell) (t : T) : S.nextTag ⟨n, g ++ (ns ++ rest), code, t⟩ = .ok ⟨a, r ++ rest, code, t⟩ := by
  subst h
  exact nextTag_gap hn hg ha _ _ _

theorem Reads.call {ty : Ty} {ns : List Node} {t t' : T} {e : Expr} (h : Reads (.ty ty) ns t e t') {f : Nat} {a : Node} {r : List Node} (hns : ns = a :: r) (hf : ns.length ≤ f)
    {g : List Node} (hg : Gap g) {m : Node} (hm : Stop m) (tl : List Node) (code : List Cell) :
    Mtx.call (proc f) ty ⟨a, r ++ (g ++ m :: tl), code, t⟩ = .ok ⟨m, tl, code ++ compile e, t'⟩ := by
  rw [Mtx.call, h f false g m tl code a r hns hf hg hm]
  rfl

theorem un_reads {ty : Ty} {ns : List Node} {t t' : T} {e : Expr} (h : Reads (.ty ty) ns t e t') {a : Node} {r : List Node} (hns : ns = a :: r) (ha : isText a = false) {f : Nat}
    (hf : ns.length ≤ f) {x : Text} (hx : x ∉ bareNames) (hx1 : x ≠ t!"#text") (hx2 : x ≠ t!"#comment") {n z : Node} (hn : Start x n) (hz : End x z) {g g' h' : List Node} (hg : Gap g) (hg' : Gap g') (hh : Gap h')
    {m : Node} (hm : Stop m) (tl : List Node) (code cs : List Cell) {chk : S → Outcome S} (hc : ∀ r code t, chk ⟨z, r, code, t⟩ = .ok ⟨z, r, code, t⟩) :
    un (proc f) chk ty cs ⟨n, (g ++ ns ++ g' ++ [z]) ++ (h' ++ m :: tl), code, t⟩ = .ok ⟨m, tl, code ++ compile e ++ cs, t'⟩ := by
  have hnt := isText_name hn.1 hx1 hx2
  have hzt := isText_name hz.1 hx1 hx2
  have e1 : (g ++ ns ++ g' ++ [z]) ++ (h' ++ m :: tl) = g ++ (ns ++ (g' ++ z :: (h' ++ m :: tl))) := by simp
  rw [un, e1, enter hnt hg hns ha]
  simp only [Outcome.bind_ok]
  rw [h.call hns hf hg' (Stop.ending hz hx hx1 hx2)]
  simp only [Outcome.bind_ok, hc, S.emit]
  exact nextTag_gap hzt hh hm.1 _ _ _

theorem bin_reads {ty : Ty} {ns ms : List Node} {t t' t'' : T} {e d : Expr} (h : Reads (.ty ty) ns t e t') (h2 : Reads (.ty ty) ms t' d t'') {a : Node} {r : List Node}
    (hns : ns = a :: r) (ha : isText a = false) {b : Node} {q : List Node} (hms : ms = b :: q) (hb : Stop b) {f : Nat}
    (hf : ns.length ≤ f) (hf' : ms.length ≤ f) {x : Text} (hx : x ∉ bareNames) (hx1 : x ≠ t!"#text") (hx2 : x ≠ t!"#comment") {n z : Node} (hn : Start x n) (hz : End x z)
    {g g' g'' h' : List Node} (hg : Gap g) (hg' : Gap g') (hg'' : Gap g'') (hh : Gap h') {m : Node} (hm : Stop m) (tl : List Node) (code cs : List Cell) :
    bin (proc f) x ty cs ⟨n, (g ++ ns ++ g' ++ ms ++ g'' ++ [z]) ++ (h' ++ m :: tl), code, t⟩ = .ok ⟨m, tl, code ++ compile e ++ compile d ++ cs, t''⟩ := by
  have hnt := isText_name hn.1 hx1 hx2
  have hzt := isText_name hz.1 hx1 hx2
  have e1 : (g ++ ns ++ g' ++ ms ++ g'' ++ [z]) ++ (h' ++ m :: tl) = g ++ (ns ++ (g' ++ b :: (q ++ (g'' ++ z :: (h' ++ m :: tl))))) := by simp [hms]
  rw [bin, e1, enter hnt hg hns ha]
  simp only [Outcome.bind_ok]
  rw [h.call hns hf hg' hb]
  simp only [Outcome.bind_ok]
  rw [h2.call hms hf' hg'' (Stop.ending hz hx hx1 hx2)]
  simp only [Outcome.bind_ok, atEnd_end hz, S.emit]
  exact nextTag_gap hzt hh hm.1 _ _ _

theorem constOp_reads {ty : Ty} {ns : List Node} {t1 t t' : T} {e : Expr} (h : Reads (.ty ty) ns t e t') {a : Node} {r : List Node} (hns : ns = a :: r) (ha : isText a = false) {f : Nat}
    (hf : ns.length ≤ f) {x : Text} (hx : x ∉ bareNames) (hx1 : x ≠ t!"#text") (hx2 : x ≠ t!"#comment") {n z : Node} (hn : Start x n) (hz : End x z) {g g' h' : List Node} (hg : Gap g) (hg' : Gap g') (hh : Gap h')
    {m : Node} (hm : Stop m) (tl : List Node) (code : List Cell) (op : Op) (get : S → Outcome (Option Nat × S)) {k : Nat} (hk : k < 256)
    (hget : ∀ r, get ⟨n, r, code, t1⟩ = .ok (some k, ⟨n, r, code, t⟩)) :
    constOp (proc f) x get ty op ⟨n, (g ++ ns ++ g' ++ [z]) ++ (h' ++ m :: tl), code, t1⟩ = .ok ⟨m, tl, code ++ compile e ++ [.op op, .arg k], t'⟩ := by
  have hnt := isText_name hn.1 hx1 hx2
  have hzt := isText_name hz.1 hx1 hx2
  have e1 : (g ++ ns ++ g' ++ [z]) ++ (h' ++ m :: tl) = g ++ (ns ++ (g' ++ z :: (h' ++ m :: tl))) := by simp
  rw [constOp, hget]
  simp only [Outcome.bind_ok]
  rw [e1, enter hnt hg hns ha]
  simp only [Outcome.bind_ok]
  rw [h.call hns hf hg' (Stop.ending hz hx hx1 hx2)]
  simp only [Outcome.bind_ok, S.emit, S.emitUInt, hk, if_true, atEnd_end hz, List.append_assoc, List.cons_append, List.nil_append]
  exact nextTag_gap hzt hh hm.1 _ _ _

theorem join_reads {ns : List Node} {t1 t t' : T} {e : Expr} (h : Reads (.ty .strs) ns t e t') {a : Node} {r : List Node} (hns : ns = a :: r) (ha : isText a = false) {f : Nat}
    (hf : ns.length ≤ f) {n z : Node} (hn : Start t!"join" n) (hz : End t!"join" z) {g g' h' : List Node} (hg : Gap g) (hg' : Gap g') (hh : Gap h')
    {m : Node} (hm : Stop m) (tl : List Node) (code : List Cell) {k : Option Nat} (hk : k.getD 255 < 256)
    (hget : ∀ r, S.strRef ⟨n, r, code, t1⟩ = .ok (k, ⟨n, r, code, t⟩)) :
    joinOp (proc f) ⟨n, (g ++ ns ++ g' ++ [z]) ++ (h' ++ m :: tl), code, t1⟩ = .ok ⟨m, tl, code ++ compile e ++ [.op .join, .arg (k.getD 255)], t'⟩ := by
  have hnt := isText_name hn.1 (by decide) (by decide)
  have hzt := isText_name hz.1 (by decide) (by decide)
  have e1 : (g ++ ns ++ g' ++ [z]) ++ (h' ++ m :: tl) = g ++ (ns ++ (g' ++ z :: (h' ++ m :: tl))) := by simp
  rw [joinOp, hget]
  simp only [Outcome.bind_ok]
  rw [e1, enter hnt hg hns ha]
  simp only [Outcome.bind_ok]
  rw [h.call hns hf hg' (Stop.ending hz (by decide) (by decide) (by decide))]
  simp only [Outcome.bind_ok, S.emit, S.emitUInt, hk, if_true, atAnyEnd_end hz, List.append_assoc, List.cons_append, List.nil_append]
  exact nextTag_gap hzt hh hm.1 _ _ _

theorem slice_reads {ty : Ty} {ns : List Node} {t t' : T} {e : Expr} (h : Reads (.ty ty) ns t e t') {a : Node} {r : List Node} (hns : ns = a :: r) (ha : isText a = false) {f : Nat}
    (hf : ns.length ≤ f) {n z : Node} (hn : Start t!"slice" n) (hz : End t!"slice" z) {g g' h' : List Node} (hg : Gap g) (hg' : Gap g') (hh : Gap h')
    {m : Node} (hm : Stop m) (tl : List Node) (code : List Cell) {i j : Int} (hi : IntAttr (z.attrib t!"start") i) (hj : IntAttr (z.attrib t!"end") j)
    (h1 : -128 ≤ i) (h2 : i < 128) (h3 : -128 ≤ j) (h4 : j < 128) :
    slice (proc f) ty ⟨n, (g ++ ns ++ g' ++ [z]) ++ (h' ++ m :: tl), code, t⟩ = .ok ⟨m, tl, code ++ compile e ++ [.op .slice, intByte i, intByte j], t'⟩ := by
  have hnt := isText_name hn.1 (by decide) (by decide)
  have hzt := isText_name hz.1 (by decide) (by decide)
  have e1 : (g ++ ns ++ g' ++ [z]) ++ (h' ++ m :: tl) = g ++ (ns ++ (g' ++ z :: (h' ++ m :: tl))) := by simp
  rw [slice]
  rw [e1, enter hnt hg hns ha]
  simp only [Outcome.bind_ok]
  rw [h.call hns hf hg' (Stop.ending hz (by decide) (by decide) (by decide))]
  simp only [Outcome.bind_ok, S.emit, S.emitInt, getInt_attr hi, getInt_attr hj, h1, h2, h3, h4, and_self, if_true, atEnd_end hz, List.append_assoc, List.cons_append, List.nil_append]
  exact nextTag_gap hzt hh hm.1 _ _ _

theorem subscript_reads {ty : Ty} {ns : List Node} {t t' : T} {e : Expr} (h : Reads (.ty ty) ns t e t') {a : Node} {r : List Node} (hns : ns = a :: r) (ha : isText a = false) {f : Nat}
    (hf : ns.length ≤ f) {n z : Node} (hn : Start t!"subscript" n) (hz : End t!"subscript" z) {g g' h' : List Node} (hg : Gap g) (hg' : Gap g') (hh : Gap h')
    {m : Node} (hm : Stop m) (tl : List Node) (code : List Cell) {i : Nat} (hi : IntLit (n.attrib t!"idx") i) (h1 : i < 256) :
    subscript (proc f) ty ⟨n, (g ++ ns ++ g' ++ [z]) ++ (h' ++ m :: tl), code, t⟩ = .ok ⟨m, tl, code ++ compile e ++ [.op .subscript, .arg i], t'⟩ := by
  have hnt := isText_name hn.1 (by decide) (by decide)
  have hzt := isText_name hz.1 (by decide) (by decide)
  have e1 : (g ++ ns ++ g' ++ [z]) ++ (h' ++ m :: tl) = g ++ (ns ++ (g' ++ z :: (h' ++ m :: tl))) := by simp
  simp only [subscript, getInt_lit hi]
  rw [e1, enter hnt hg hns ha]
  simp only [Outcome.bind_ok]
  rw [h.call hns hf hg' (Stop.ending hz (by decide) (by decide) (by decide))]
  have h0 : (0 : Int) ≤ (i : Int) := Int.natCast_nonneg i
  simp only [Outcome.bind_ok, S.emit, S.emitUInt, Int.toNat_natCast, h0, h1, if_true, atEnd_end hz, List.append_assoc, List.cons_append, List.nil_append]
  exact nextTag_gap hzt hh hm.1 _ _ _

theorem comm_reads {ns : List Node} {t t' : T} {e : Expr} (h : Reads .ops ns t e t') {a : Node} {r : List Node} (hns : ns = a :: r) (ha : isText a = false) {f : Nat}
    (hf : ns.length ≤ f) {x : Text} (hx : x ∉ bareNames) (hx1 : x ≠ t!"#text") (hx2 : x ≠ t!"#comment") {n z : Node} (hn : Start x n) (hz : End x z) {g g' h' : List Node} (hg : Gap g) (hg' : Gap g') (hh : Gap h')
    {m : Node} (hm : Stop m) (tl : List Node) (code : List Cell) (op : Op) :
    comm (proc f) x op ⟨n, (g ++ ns ++ g' ++ [z]) ++ (h' ++ m :: tl), code, t⟩ = .ok ⟨m, tl, code ++ compile e ++ List.replicate (operandCount e - 1) (.op op), t'⟩ := by
  have hnt := isText_name hn.1 hx1 hx2
  have hzt := isText_name hz.1 hx1 hx2
  have e1 : (g ++ ns ++ g' ++ [z]) ++ (h' ++ m :: tl) = g ++ (ns ++ (g' ++ z :: (h' ++ m :: tl))) := by simp
  rw [comm, e1, enter hnt hg hns ha]
  simp only [Outcome.bind_ok]
  rw [h f _ g' z _ code a r hns hf (by subst hns; simp; omega) hg' (Stop.ending hz hx hx1 hx2) hz.2]
  simp only [Outcome.bind_ok, atEnd_end hz, S.emit]
  exact nextTag_gap hzt hh hm.1 _ _ _

end Verif.Mtx
