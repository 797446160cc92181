import Verif.Mtx.Steps
import Verif.Mtx.Means
/-!
# Which case of the reader an element is
-/
namespace Verif.Mtx
open Verif.VM (Cell Op Expr compile)
open Verif.Tsx (Node Gap Start End isText)

theorem orElse_other {s : S} (h1 : s.cur.name ≠ t!"var") (h2 : s.cur.name ≠ t!"macro") (rec : Rec) (ty : Ty) (k : Outcome (S × Bool)) : orElse rec ty s k = k := by
  simp only [orElse, tryArg, tryVar, h1, h2, false_and, and_false, if_false, Outcome.bind_ok]

theorem tryArg_other {s : S} (h1 : s.cur.name ≠ t!"var") (ty : Ty) (af : Bool) : tryArg ty af s = .ok none := by
  simp only [tryArg, h1, false_and, if_false]

/-- The assertion at the end of an element. -/
def Un.chk : Un → S → Outcome S
  | .not => S.atEnd t!"not"
  | .adjust => S.atEnd t!"adjust"
  | .clamp => S.atEnd t!"clamp"
  | .ambgset => .ok
  | .wordoids => S.atEnd t!"ex-wordoids"
  | _ => S.atAnyEnd

theorem proc_un (o : Un) {n : Node} (h : n.name = o.elem) (f : Nat) (af : Bool) (r : List Node) (code : List Cell) (t : T) :
    proc (f + 1) o.res af ⟨n, r, code, t⟩ = done (un (proc f) o.chk o.arg [.op o.op] ⟨n, r, code, t⟩) := by
  have ht : isText n = false := by cases o <;> exact isText_name h (by decide) (by decide)
  cases o <;> simp only [Un.elem] at h <;>
    simp only [proc, procBool, procWrd, procStr, procStrs, procWrds, procAddr, Un.res, toTag_tag ht, Outcome.bind_ok] <;>
    simp [h, orElse_other, tryArg_other, Un.chk, Un.arg, Un.op]

theorem proc_bin (o : Bin) {n : Node} (h : n.name = o.elem) (f : Nat) (af : Bool) (r : List Node) (code : List Cell) (t : T) :
    proc (f + 1) o.res af ⟨n, r, code, t⟩ = done (bin (proc f) o.elem o.arg o.ops ⟨n, r, code, t⟩) := by
  have ht : isText n = false := by
    rcases o with _ | _ | _ | o
    · exact isText_name h (by decide) (by decide)
    · exact isText_name h (by decide) (by decide)
    · exact isText_name h (by decide) (by decide)
    · cases o <;> exact isText_name h (by decide) (by decide)
  rcases o with _ | _ | _ | o
  · simp only [Bin.elem] at h
    simp only [proc, procInt, Bin.res]
    simp [h, orElse_other, Bin.elem, Bin.arg, Bin.ops]
  · simp only [Bin.elem] at h
    simp only [proc, procAddr, Bin.res, toTag_tag ht, Outcome.bind_ok]
    simp [h, tryArg_other, Bin.elem, Bin.arg, Bin.ops]
  · simp only [Bin.elem] at h
    simp only [proc, procAddr, Bin.res, toTag_tag ht, Outcome.bind_ok]
    simp [h, tryArg_other, Bin.elem, Bin.arg, Bin.ops]
  · cases o <;> simp only [Bin.elem] at h <;> simp only [proc, procBool, Bin.res] <;> simp [h, orElse_other, Bin.elem, Bin.arg, Bin.ops, VM.Cmp.op]

def Leaf.op : Leaf → Op
  | .sentlen => .sentlentok
  | .pathlen => .sentlenwrd
  | .tokaddr => .pushtokaddr
  | .wrdidx => .pushwrdaddr
  | .wrdaddr => .pushaddr

theorem proc_leaf (o : Leaf) {n : Node} (h : n.name = o.elem) (f : Nat) (af : Bool) (r : List Node) (code : List Cell) (t : T) :
    proc (f + 1) o.res af ⟨n, r, code, t⟩ = done (leaf o.elem [.op o.op] ⟨n, r, code, t⟩) := by
  have ht : isText n = false := by cases o <;> exact isText_name h (by decide) (by decide)
  cases o <;> simp only [Leaf.elem] at h <;> simp only [proc, procInt, procAddr, Leaf.res, toTag_tag ht, Outcome.bind_ok] <;>
    simp [h, orElse_other, tryArg_other, Leaf.elem, Leaf.op]

theorem proc_int {n : Node} (h : n.name = t!"int") {i : Int} (hi : IntLit (n.attrib t!"val") i) (h1 : -128 ≤ i) (h2 : i < 128) (f : Nat) (af : Bool) (r : List Node) (code : List Cell) (t : T) :
    proc (f + 1) .int af ⟨n, r, code, t⟩ = done (S.past t!"int" ⟨n, r, code ++ [.op .pushint, VM.intByte i], t⟩) := by
  have hg := getInt_lit hi r code t
  simp only [proc, procInt]
  simp [h, orElse_other, hg, S.emitInt, h1, h2, S.emit]

theorem proc_and {n : Node} (h : n.name = t!"and") (f : Nat) (af : Bool) (r : List Node) (code : List Cell) (t : T) :
    proc (f + 1) .bool af ⟨n, r, code, t⟩ = done (comm (proc f) t!"and" .and ⟨n, r, code, t⟩) := by
  simp only [proc, procBool]
  simp [h, orElse_other]

theorem proc_or {n : Node} (h : n.name = t!"or") (f : Nat) (af : Bool) (r : List Node) (code : List Cell) (t : T) :
    proc (f + 1) .bool af ⟨n, r, code, t⟩ = done (comm (proc f) t!"or" .or ⟨n, r, code, t⟩) := by
  simp only [proc, procBool]
  simp [h, orElse_other]

theorem proc_streq {n : Node} (h : n.name = t!"streq") (f : Nat) (af : Bool) (r : List Node) (code : List Cell) (t : T) :
    proc (f + 1) .bool af ⟨n, r, code, t⟩ = done (constOp (proc f) t!"streq" S.strRef .str .streq ⟨n, r, code, t⟩) := by
  simp only [proc, procBool]
  simp [h, orElse_other]

theorem proc_set (o : SetTest) {n : Node} (h : n.name = o.elem) (f : Nat) (af : Bool) (r : List Node) (code : List Cell) (t : T) :
    proc (f + 1) .bool af ⟨n, r, code, t⟩ = done (constOp (proc f) o.elem S.setRef o.arg o.op ⟨n, r, code, t⟩) := by
  cases o <;> simp only [SetTest.elem] at h <;> simp only [proc, procBool] <;> simp [h, orElse_other, SetTest.elem, SetTest.arg, SetTest.op]

/-- `join`, mtx_reader.cc:446-456 -/
def joinOp (rec : Rec) (s : S) : Outcome S := do
  let r ← s.strRef
  let s ← r.2.nextTag
  let s ← call rec .strs s
  let s ← (s.emit [.op .join]).emitUInt (r.1.getD 255)
  let s ← s.atAnyEnd
  s.nextTag

theorem proc_join {n : Node} (h : n.name = t!"join") (f : Nat) (af : Bool) (r : List Node) (code : List Cell) (t : T) :
    proc (f + 1) .str af ⟨n, r, code, t⟩ = done (joinOp (proc f) ⟨n, r, code, t⟩) := by
  simp only [proc, procStr]
  simp [h, orElse_other, joinOp]

theorem proc_slice {ty : Ty} (hty : ty = .str ∨ ty = .strs ∨ ty = .wrds) {n : Node} (h : n.name = t!"slice") (f : Nat) (af : Bool) (r : List Node) (code : List Cell) (t : T) :
    proc (f + 1) ty af ⟨n, r, code, t⟩ = done (slice (proc f) ty ⟨n, r, code, t⟩) := by
  have ht : isText n = false := isText_name h (by decide) (by decide)
  rcases hty with rfl | rfl | rfl <;> simp only [proc, procStr, procStrs, procWrds, toTag_tag ht, Outcome.bind_ok] <;> simp [h, orElse_other]

theorem proc_subscript (w : Bool) {n : Node} (h : n.name = t!"subscript") (f : Nat) (af : Bool) (r : List Node) (code : List Cell) (t : T) :
    proc (f + 1) (elemTy w) af ⟨n, r, code, t⟩ = done (subscript (proc f) (listTy w) ⟨n, r, code, t⟩) := by
  have ht : isText n = false := isText_name h (by decide) (by decide)
  cases w <;> simp only [elemTy, listTy, if_true, Bool.false_eq_true, if_false, proc, procStr, procWrd, toTag_tag ht, Outcome.bind_ok] <;> simp [h, orElse_other]

theorem proc_forEach (w : Bool) {n : Node} (h : n.name = t!"for-each") (f : Nat) (af : Bool) (r : List Node) (code : List Cell) (t : T) :
    proc (f + 1) (listTy w) af ⟨n, r, code, t⟩ = done (forEach (proc f) (elemTy w) ⟨n, r, code, t⟩ >>= S.nextTag) := by
  have ht : isText n = false := isText_name h (by decide) (by decide)
  cases w <;> simp only [elemTy, listTy, if_true, Bool.false_eq_true, if_false, proc, procStrs, procWrds, toTag_tag ht, Outcome.bind_ok] <;> simp [h, orElse_other]

theorem proc_var {ty : Ty} (hty : ty = .str ∨ ty = .wrd) {n : Node} (h : n.name = t!"var") {t : T} (ha : t.inMacro = true → t.args = []) {k : Nat}
    (hk : Tsx.mapFind t.slotNames (n.attrib t!"name") = some k) (ht : t.slotTypes[k]? = some ty) (hb : k < 256) (f : Nat) (af : Bool) (r : List Node) (code : List Cell) :
    proc (f + 1) ty af ⟨n, r, code, t⟩ = done (S.past t!"var" ⟨n, r, code ++ [.op .getvar, .arg k], t⟩) := by
  have htx : isText n = false := isText_name h (by decide) (by decide)
  have hA : tryArg ty true ⟨n, r, code, t⟩ = .ok none := by
    simp only [tryArg]
    split
    · rename_i hc
      rw [ha hc.2]
      rfl
    · rfl
  have hV (rec : Rec) : tryVar rec ty ⟨n, r, code, t⟩ = (S.past t!"var" ⟨n, r, code ++ [.op .getvar, .arg k], t⟩).map some := by
    simp only [tryVar, h, if_true, hk, ht, ne_eq, not_true, if_false, S.emit, S.emitUInt, hb, Outcome.bind_ok, List.append_assoc, List.cons_append, List.nil_append]
  have hO (rec : Rec) (q : Outcome (S × Bool)) : orElse rec ty ⟨n, r, code, t⟩ q = done (S.past t!"var" ⟨n, r, code ++ [.op .getvar, .arg k], t⟩) := by
    simp only [orElse, hA, Outcome.bind_ok, hV]
    cases S.past t!"var" ⟨n, r, code ++ [.op .getvar, .arg k], t⟩ <;> rfl
  rcases hty with rfl | rfl <;> simp only [proc, procStr, procWrd, toTag_tag htx, Outcome.bind_ok, hO]

theorem proc_macro {ty : Ty} (hty : ty ≠ .addr) (hty' : ty ≠ .void) {n : Node} (h : n.name = t!"macro") {t : T} (ha : t.inMacro = false) (f : Nat) (af : Bool) (r : List Node)
    (code : List Cell) : proc (f + 1) ty af ⟨n, r, code, t⟩ = done (macroCall (proc f) ty ⟨n, r, code, t⟩) := by
  have htx : isText n = false := isText_name h (by decide) (by decide)
  have hA : tryArg ty true ⟨n, r, code, t⟩ = .ok none := tryArg_other (by rw [h]; decide) _ _
  have hO (q : Outcome (S × Bool)) : orElse (proc f) ty ⟨n, r, code, t⟩ q = done (macroCall (proc f) ty ⟨n, r, code, t⟩) := by
    have hV : tryVar (proc f) ty ⟨n, r, code, t⟩ = (macroCall (proc f) ty ⟨n, r, code, t⟩).map some := by
      simp only [tryVar, h, ha]
      simp
    simp only [orElse, hA, Outcome.bind_ok, hV]
    cases macroCall (proc f) ty ⟨n, r, code, t⟩ <;> rfl
  cases ty <;> first | exact absurd rfl hty | exact absurd rfl hty' | (simp only [proc, procInt, procBool, procStr, procStrs, procWrd, procWrds, toTag_tag htx, Outcome.bind_ok, hO])

/-! ### Elements of other types -/

/-- The names of the elements of a type. -/
def elemsOf : Ty → List Text
  | .int => [t!"sentlen", t!"pathlen", t!"tokaddr", t!"wrdidx", t!"int", t!"add", t!"toklen", t!"strlen", t!"arrlen"]
  | .bool => [t!"and", t!"or", t!"not", t!"eq", t!"neq", t!"lt", t!"lte", t!"gt", t!"gte", t!"streq", t!"strin", t!"sethasany", t!"sethasall"]
  | .str => [t!"slice", t!"subscript", t!"ex-surf", t!"ex-lemma", t!"ex-coarse", t!"join"]
  | .strs => [t!"slice", t!"ex-tags", t!"ex-ambgset", t!"for-each"]
  | .wrds => [t!"slice", t!"ex-wordoids", t!"for-each"]
  | .wrd => [t!"subscript", t!"ex-wordoid"]
  | .addr => [t!"wrdaddr", t!"addr-of-ints", t!"add", t!"adjust", t!"clamp"]
  | .void => [t!"pred", t!"out", t!"out-many", t!"for-each", t!"inst"]

/-- An element that is not of the type is left to others. -/
theorem proc_other {ty : Ty} (hty : ty ≠ .addr) (hty' : ty ≠ .void) {n : Node} (ht : isText n = false) (hv : n.name ≠ t!"var") (hm : n.name ≠ t!"macro") (h : n.name ∉ elemsOf ty)
    (f : Nat) (r : List Node) (code : List Cell) (t : T) : proc (f + 1) ty true ⟨n, r, code, t⟩ = .ok (⟨n, r, code, t⟩, false) := by
  cases ty <;> first | exact absurd rfl hty | exact absurd rfl hty' | skip
  all_goals
    simp only [elemsOf, List.mem_cons, List.not_mem_nil, or_false, not_or] at h
    simp only [proc, procInt, procBool, procStr, procStrs, procWrd, procWrds, toTag_tag ht, Outcome.bind_ok]
    simp [h, orElse_other, hv, hm, other]

end Verif.Mtx
