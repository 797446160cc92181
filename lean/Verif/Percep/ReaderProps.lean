import Verif.Percep.Reader
/-!
# C58: feature templates mean what they say
-/
namespace Verif.VM
open Verif.Unigram
open Verif.Percep (Tagged)

/-! ### Specification: the meaning of expressions -/

/-- Values of the variables. -/
abbrev Env := Nat → Option Val

def upd (env : Env) (k : Nat) (v : Val) : Env := fun i => if i = k then some v else env i

/-- Comparison of numbers. -/
def Cmp.holds : Cmp → Int → Int → Bool
  | .lt, a, b => decide (a < b)
  | .lte, a, b => decide (a ≤ b)
  | .gt, a, b => decide (b < a)
  | .gte, a, b => decide (b ≤ a)
  | .eq, a, b => decide (a = b)
  | .neq, a, b => decide (a ≠ b)

/-- The part from `b` to `e` of a list; negative numbers and `e = 0` count from the end. -/
def part {α : Type} (l : List α) (b e : Int) : Option (List α) :=
  let i := if b < 0 then (l.length : Int) + b else b
  let j := if e ≤ 0 then (l.length : Int) + e else e
  if 0 ≤ i ∧ i ≤ j ∧ j ≤ l.length then some ((l.drop i.toNat).take (j - i).toNat) else none

/-- The elements of a list. -/
def elems : Val → Option (List Val)
  | .strs l => some (l.map .str)
  | .wrds l => some (l.map .wrd)
  | _ => none

/-- All the values are strings. -/
def strings : List Val → Option (List Str)
  | [] => some []
  | .str b :: vs => (strings vs).map (b :: ·)
  | _ :: _ => none

/-- All the values are wordoids. -/
def words : List Val → Option (List Morpheme)
  | [] => some []
  | .wrd b :: vs => (words vs).map (b :: ·)
  | _ :: _ => none

/-- A list of strings (of wordoids). -/
def collect : Bool → List Val → Option Val
  | false, vs => (strings vs).map .strs
  | true, vs => (words vs).map .wrds

/-- All the values are booleans. -/
def bools : List Val → Option (List Bool)
  | [] => some []
  | .bool b :: vs => (bools vs).map (b :: ·)
  | _ :: _ => none

/-- One value. -/
def one : List Val → Option Val
  | [v] => some v
  | _ => none

/-- The first failure, or all results. -/
def each (f : Val → Option Val) : List Val → Option (List Val)
  | [] => some []
  | v :: vs => (f v).bind (fun r => (each f vs).map (r :: ·))

/-- The meaning of an expression: the values it stands for (two numbers for an address, any number of operands), the last one first. `none`: no
meaning. -/
def meaning (c : Ctx) : Expr → Env → Option (List Val)
  | .sentlen, _ => some [.int c.untagged.length]
  | .pathlen, _ => none
  | .tokaddr, _ => some [.int c.tok]
  | .wrdidx, _ => some [.int c.wrd]
  | .wrdaddr, _ => some [.int c.wrd, .int c.tok]
  | .lit i, _ => some [.int i]
  | .add a b, env =>
    match meaning c a env, meaning c b env with
    | some [.int x], some [.int y] => some [.int (x + y)]
    | _, _ => none
  | .gvar k, _ => (c.globals[k]?).map (fun v => [v])
  | .var k, env => (env k).map (fun v => [v])
  | .seq a b, env =>
    match meaning c a env, meaning c b env with
    | some x, some y => some (y ++ x)
    | _, _ => none
  | .and e, env => ((meaning c e env).bind bools).bind (fun l => if l = [] then none else some [.bool (l.all id)])
  | .or e, env => ((meaning c e env).bind bools).bind (fun l => if l = [] then none else some [.bool (l.any id)])
  | .not e, env =>
    match meaning c e env with
    | some [.bool x] => some [.bool (!x)]
    | _ => none
  | .cmp o a b, env =>
    match meaning c a env, meaning c b env with
    | some [.int x], some [.int y] => some [.bool (o.holds x y)]
    | _, _ => none
  | .streq k e, env =>
    match meaning c e env, strOperand c k with
    | some [.str x], some y => some [.bool (decide (x = y))]
    | _, _ => none
  | .strin k e, env =>
    match meaning c e env, c.setConsts[k]? with
    | some [.str x], some y => some [.bool (decide (x ∈ y))]
    | _, _ => none
  | .sethasany k e, env =>
    match meaning c e env, c.setConsts[k]? with
    | some [.strs l], some y => some [.bool (decide (∃ x ∈ l, x ∈ y))]
    | _, _ => none
  | .sethasall k e, env =>
    match meaning c e env, c.setConsts[k]? with
    | some [.strs l], some y => some [.bool (decide (∀ x ∈ l, x ∈ y))]
    | _, _ => none
  | .addAddr a b, env =>
    match meaning c a env, meaning c b env with
    | some [.int w, .int t], some [.int w', .int t'] => some [.int (w + w'), .int (t + t')]
    | _, _ => none
  | .adjust e, env =>
    match meaning c e env with
    | some [.int w, .int t] => some [.int (adjAddr c.tagged t w).2, .int (adjAddr c.tagged t w).1]
    | _ => none
  | .clamp e, env =>
    match meaning c e env with
    | some [.int w, .int t] =>
      if c.tagged = [] then none else some [.int (clampAddr c.tagged t w).2, .int (clampAddr c.tagged t w).1]
    | _ => none
  | .wordoid e, env =>
    match meaning c e env with
    | some [.int w, .int t] => some [.wrd (getWordoid c t w)]
    | _ => none
  | .surf e, env =>
    match meaning c e env with
    | some [.int t] => some [.str (c.enc (getToken c t).surface)]
    | _ => none
  | .lem e, env =>
    match meaning c e env with
    | some [.wrd m] => some [.str (c.enc m.lemma)]
    | _ => none
  | .coarse e, env =>
    match meaning c e env with
    | some [.wrd m] => some [.str (c.coarsen m)]
    | _ => none
  | .join k e, env =>
    match meaning c e env, strOperand c k with
    | some [.strs l], some sep => some [.str (sep.intercalate l)]
    | _, _ => none
  | .tags e, env =>
    match meaning c e env with
    | some [.wrd m] => some [.strs (m.tags.map c.enc)]
    | _ => none
  | .ambgset e, env =>
    match meaning c e env with
    | some [.int t] =>
      if ∃ an ∈ (getToken c t).analyses, an.morphemes = [] then none
      else some [.strs ((getToken c t).analyses.map (fun an => ([43] : Str).intercalate (an.morphemes.map c.coarsen)))]
    | _ => none
  | .wordoids e, env =>
    match meaning c e env with
    | some [.int t] => some [.wrds (wordoidsAt c t)]
    | _ => none
  | .slice b e x, env =>
    match meaning c x env with
    | some [.str l] => (part l b e).map (fun r => [.str r])
    | some [.strs l] => (part l b e).map (fun r => [.strs r])
    | some [.wrds l] => (part l b e).map (fun r => [.wrds r])
    | _ => none
  | .subscript i x, env =>
    match meaning c x env with
    | some [.strs l] => (l[i]?).map (fun r => [.str r])
    | some [.wrds l] => (l[i]?).map (fun r => [.wrd r])
    | _ => none
  | .forEach w k src body, env =>
    match meaning c src env with
    | some [v] =>
      ((elems v).bind (fun xs => (each (fun x => (meaning c body (upd env k x)).bind one) xs).bind (collect w))).map (fun r => [r])
    | _ => none

/-- What the reader asserts or takes for granted: constants fit into a byte, loops into the range of jumps, slots are not
used twice. -/
def slotsOf : Expr → List Nat
  | .add a b | .seq a b | .cmp _ a b | .addAddr a b => slotsOf a ++ slotsOf b
  | .and e | .or e | .not e | .streq _ e | .strin _ e | .sethasany _ e | .sethasall _ e | .adjust e | .clamp e | .wordoid e | .surf e
  | .lem e | .coarse e | .join _ e | .tags e | .ambgset e | .wordoids e | .slice _ _ e | .subscript _ e => slotsOf e
  | .forEach _ k src body => k :: (slotsOf src ++ slotsOf body)
  | _ => []

def Fits : Expr → Prop
  | .lit i => -128 ≤ i ∧ i < 128
  | .add a b | .seq a b | .cmp _ a b | .addAddr a b => Fits a ∧ Fits b
  | .and e | .or e | .not e | .streq _ e | .strin _ e | .sethasany _ e | .sethasall _ e | .adjust e | .clamp e | .wordoid e | .surf e
  | .lem e | .coarse e | .join _ e | .tags e | .ambgset e | .wordoids e | .subscript _ e => Fits e
  | .slice b e x => Fits x ∧ -128 ≤ b ∧ b < 128 ∧ -128 ≤ e ∧ e < 128
  | .forEach _ k src body => Fits src ∧ Fits body ∧ k ∉ slotsOf body ∧ (compile body).length + 5 < 128
  | _ => True

/-- The cases that the code gets right.  No operand of `and` but the first is false and none of `or` but the first is true (else a
value stays on the stack); the operands of `lt`, `lte`, `gt`, `gte` are evaluated from right to left; `slice` does not begin at the end; the first string of `join` is not empty unless it is the
only one; the list of a `for-each` is not empty. -/
def Clean (c : Ctx) : Expr → Env → Prop
  | .add a b, env | .seq a b, env | .addAddr a b, env => Clean c a env ∧ Clean c b env
  | .cmp o a b, env => Clean c a env ∧ Clean c b env ∧ (o = .eq ∨ o = .neq ∨ c.leftFirst = false)
  | .and e, env => Clean c e env ∧ ∀ vs, (meaning c e env).bind bools = some vs → ∀ b ∈ vs.dropLast, b = true
  | .or e, env => Clean c e env ∧ ∀ vs, (meaning c e env).bind bools = some vs → ∀ b ∈ vs.dropLast, b = false
  | .join _ e, env => Clean c e env ∧ ∀ l, meaning c e env = some [.strs l] → l.length ≤ 1 ∨ l.head? ≠ some []
  | .slice b _ e, env => Clean c e env ∧
      ∀ v n, meaning c e env = some [v] →
        (match v with | .str l => n = l.length | .strs l => n = l.length | .wrds l => n = l.length | _ => False) → 0 < n ∧ b < (n : Int)
  | .not e, env | .streq _ e, env | .strin _ e, env | .sethasany _ e, env | .sethasall _ e, env | .adjust e, env | .clamp e, env | .wordoid e, env
  | .surf e, env | .lem e, env | .coarse e, env | .tags e, env | .ambgset e, env | .wordoids e, env | .subscript _ e, env => Clean c e env
  | .forEach _ k src body, env => Clean c src env ∧
      ∀ v xs, meaning c src env = some [v] → elems v = some xs → xs ≠ [] ∧ ∀ x ∈ xs, Clean c body (upd env k x)
  | _, _ => True

/-! ### Runs -/

/-- Runs of the machine. -/
inductive Steps (c : Ctx) (code : List Cell) : State → State → Prop
  | refl (s) : Steps c code s s
  | head {s s' s''} : step c code s = .ok (some s') → Steps c code s' s'' → Steps c code s s''

theorem Steps.trans {c : Ctx} {code : List Cell} {a b d : State} (h : Steps c code a b) (h' : Steps c code b d) : Steps c code a d := by
  induction h with
  | refl => exact h'
  | head h1 _ ih => exact .head h1 (ih h')

theorem Steps.single {c : Ctx} {code : List Cell} {a b : State} (h : step c code a = .ok (some b)) : Steps c code a b := .head h (.refl _)

/-- The code has `frag` at `pc`. -/
def At (code : List Cell) (pc : Nat) (frag : List Cell) : Prop := ∃ pre post, code = pre ++ frag ++ post ∧ pre.length = pc

theorem At.append {code : List Cell} {pc : Nat} {a b : List Cell} (h : At code pc (a ++ b)) : At code pc a ∧ At code (pc + a.length) b := by
  obtain ⟨pre, post, e, hl⟩ := h
  exact ⟨⟨pre, b ++ post, by rw [e]; simp, hl⟩, ⟨pre ++ a, post, by rw [e]; simp, by simp [hl]⟩⟩

theorem At.get {code : List Cell} {pc : Nat} {frag : List Cell} (h : At code pc frag) (i : Nat) (hi : i < frag.length) :
    code[pc + i]? = frag[i]? := by
  obtain ⟨pre, post, e, hl⟩ := h
  subst hl
  rw [e, List.append_assoc, List.getElem?_append_right (by omega), List.getElem?_append_left (by omega)]
  congr 1
  omega

theorem step0 {c : Ctx} {code : List Cell} {s : State} {o : Op} (h : At code s.pc [.op o]) (ho : o.operands = 0) :
    step c code s = exec c o 0 0 s := by
  have h0 := h.get 0 (by simp)
  simp only [Nat.add_zero, List.getElem?_cons_zero] at h0
  simp only [step, h0, ho]

theorem step1 {c : Ctx} {code : List Cell} {s : State} {o : Op} {a : Nat} (h : At code s.pc [.op o, .arg a]) (ho : o.operands = 1) :
    step c code s = exec c o a 0 s := by
  have h0 := h.get 0 (by simp)
  have h1 := h.get 1 (by simp)
  simp only [Nat.add_zero, List.getElem?_cons_zero] at h0
  simp only [List.getElem?_cons_succ, List.getElem?_cons_zero] at h1
  simp only [step, h0, ho, argAt, h1]

theorem step2 {c : Ctx} {code : List Cell} {s : State} {o : Op} {a b : Nat} (h : At code s.pc [.op o, .arg a, .arg b]) (ho : o.operands = 2) :
    step c code s = exec c o a b s := by
  have h0 := h.get 0 (by simp)
  have h1 := h.get 1 (by simp)
  have h2 := h.get 2 (by simp)
  simp only [Nat.add_zero, List.getElem?_cons_zero] at h0
  simp only [List.getElem?_cons_succ, List.getElem?_cons_zero] at h1 h2
  simp only [step, h0, ho, argAt, h1, h2]

theorem toInt8_intByte (i : Int) (h : -128 ≤ i ∧ i < 128) : ∃ n, intByte i = .arg n ∧ toInt8 n = i := by
  refine ⟨_, rfl, ?_⟩
  unfold toInt8
  split <;> split <;> omega

/-- The slots have the values of the variables. -/
def Agree (env : Env) (slots : List (Option Val)) : Prop := ∀ k v, env k = some v → slots[k]? = some (some v)

/-- What is proved of an expression. -/
def Right (c : Ctx) (e : Expr) (env : Env) : Prop :=
  ∀ vs, meaning c e env = some vs → Clean c e env → (∀ k ∈ slotsOf e, env k = none) →
    ∀ code pc st ls slots feats, At code pc (compile e) → Agree env slots →
      ∃ slots', Agree env slots' ∧
        Steps c code ⟨pc, st, ls, slots, feats⟩ ⟨pc + (compile e).length, vs ++ st, ls, slots', feats⟩

theorem Right.unary {c : Ctx} {e E : Expr} {env : Env} {tail : List Cell} (hr : Right c e env) (hc : compile E = compile e ++ tail)
    (hs : slotsOf E = slotsOf e) (hcl : Clean c E env → Clean c e env)
    (h : ∀ vs, meaning c E env = some vs → Clean c E env → ∃ ws, meaning c e env = some ws ∧
      ∀ code pc st ls slots feats, At code pc tail →
        Steps c code ⟨pc, ws ++ st, ls, slots, feats⟩ ⟨pc + tail.length, vs ++ st, ls, slots, feats⟩) : Right c E env := by
  intro vs hm hcn hsl code pc st ls slots feats hat hag
  obtain ⟨ws, hw, hstep⟩ := h vs hm hcn
  rw [hc] at hat
  obtain ⟨ha1, ha2⟩ := hat.append
  obtain ⟨sl, hag', hst⟩ := hr ws hw (hcl hcn) (by rwa [hs] at hsl) code pc st ls slots feats ha1 hag
  refine ⟨sl, hag', hst.trans ?_⟩
  rw [hc, List.length_append, ← Nat.add_assoc]
  exact hstep _ _ _ _ _ _ ha2

theorem Right.binary {c : Ctx} {e e' E : Expr} {env : Env} {tail : List Cell} (hr : Right c e env) (hr' : Right c e' env)
    (hc : compile E = compile e ++ compile e' ++ tail)
    (hs : slotsOf E = slotsOf e ++ slotsOf e') (hcl : Clean c E env → Clean c e env ∧ Clean c e' env)
    (h : ∀ vs, meaning c E env = some vs → Clean c E env → ∃ ws ws', meaning c e env = some ws ∧ meaning c e' env = some ws' ∧
      ∀ code pc st ls slots feats, At code pc tail →
        Steps c code ⟨pc, ws' ++ (ws ++ st), ls, slots, feats⟩ ⟨pc + tail.length, vs ++ st, ls, slots, feats⟩) : Right c E env := by
  intro vs hm hcn hsl code pc st ls slots feats hat hag
  obtain ⟨ws, ws', hw, hw', hstep⟩ := h vs hm hcn
  rw [hc] at hat
  obtain ⟨ha1, ha3⟩ := hat.append
  obtain ⟨ha1, ha2⟩ := ha1.append
  rw [hs] at hsl
  obtain ⟨sl, hag', hst⟩ := hr ws hw (hcl hcn).1 (fun k hk => hsl k (by simp [hk])) code pc st ls slots feats ha1 hag
  obtain ⟨sl', hag'', hst'⟩ := hr' ws' hw' (hcl hcn).2 (fun k hk => hsl k (by simp [hk])) code _ (ws ++ st) ls sl feats ha2 hag'
  refine ⟨sl', hag'', hst.trans (hst'.trans ?_)⟩
  have := hstep code (pc + (compile e ++ compile e').length) st ls sl' feats ha3
  rw [hc, List.length_append, List.length_append, ← Nat.add_assoc, ← Nat.add_assoc]
  rw [List.length_append, ← Nat.add_assoc] at this
  exact this

/-- Expressions without parts. -/
theorem Right.leaf {c : Ctx} {E : Expr} {env : Env}
    (h : ∀ vs, meaning c E env = some vs → Clean c E env → 
      ∀ code pc st ls slots feats, At code pc (compile E) → Agree env slots →
        Steps c code ⟨pc, st, ls, slots, feats⟩ ⟨pc + (compile E).length, vs ++ st, ls, slots, feats⟩) : Right c E env := by
  intro vs hm hcn hsl code pc st ls slots feats hat hag
  exact ⟨slots, hag, h vs hm hcn code pc st ls slots feats hat hag⟩

theorem ambgTag_eq (c : Ctx) (ms : List Morpheme) : ambgTag c ms = ([43] : Str).intercalate (ms.map c.coarsen) := by
  induction ms with
  | nil => rfl
  | cons m ms ih =>
    cases ms with
    | nil => simp [ambgTag]
    | cons m' ms' => rw [ambgTag, ih]; simp; simp

theorem joinLoop_nonempty (sep : Str) (l : List Str) (r : Str) (h : r ≠ []) : joinLoop sep r l = r ++ (l.map (sep ++ ·)).flatten := by
  induction l generalizing r with
  | nil => simp [joinLoop]
  | cons x xs ih =>
    rw [joinLoop, if_neg h, ih _ (by simp [h])]
    simp

theorem intercalate_cons' (sep x : Str) (l : List Str) : sep.intercalate (x :: l) = x ++ (l.map (sep ++ ·)).flatten := by
  induction l generalizing x with
  | nil => simp
  | cons y ys ih => 
    rw [List.intercalate_cons_cons, ih]
    simp

theorem joinLoop_eq (sep : Str) (l : List Str) (h : l.length ≤ 1 ∨ l.head? ≠ some []) : joinLoop sep [] l = sep.intercalate l := by
  cases l with
  | nil => rfl
  | cons x xs =>
    rw [intercalate_cons', joinLoop, if_pos rfl, List.nil_append]
    rcases h with h | h
    · cases xs with
      | nil => simp [joinLoop]
      | cons y ys => simp at h
    · exact joinLoop_nonempty sep xs x (by intro hx; simp [hx] at h)

theorem sliceList_eq {α : Type} (l : List α) (b e : Int) (r : List α) (hp : part l b e = some r) (hn : 0 < l.length) (hb : b < (l.length : Int)) :
    sliceList l b e = some r := by
  unfold part at hp
  unfold sliceList
  simp only [] at hp ⊢
  have hi : (if b < 0 then (l.length : Int) + b else b) < l.length := by split <;> omega
  generalize (if b < 0 then (l.length : Int) + b else b) = i at hp hi ⊢
  generalize (if e ≤ 0 then (l.length : Int) + e else e) = j at hp ⊢
  split at hp
  · rename_i hc
    injection hp with hp
    have h1 : clamp 0 ((l.length : Int) - 1) i = i := by unfold clamp; omega
    have h2 : clamp 0 (l.length : Int) j = j := by unfold clamp; omega
    rw [h1, h2, if_pos ⟨hc.1, hc.2.1⟩, ← hp, List.drop_take]
    congr 2
    omega
  · exact absurd hp (by simp)

theorem bools_append {l l' : List Val} {bs : List Bool} (h : bools l = some bs) (h' : bools l' = none) : bools (l ++ l') = none := by
  induction l generalizing bs with
  | nil => simpa using h'
  | cons v vs ih =>
    cases v <;> simp [bools] at h ⊢
    obtain ⟨a, h, _⟩ := h
    exact ih h

theorem bools_map {l : List Val} {bs : List Bool} (h : bools l = some bs) : l = bs.map .bool := by
  induction l generalizing bs with
  | nil => simp [bools] at h; subst h; rfl
  | cons v vs ih =>
    cases v <;> simp [bools] at h
    obtain ⟨a, h, rfl⟩ := h
    rw [ih h]
    rfl

/-- The operands of `and` and `or`. -/
theorem bools_count (c : Ctx) (e : Expr) (env : Env) : ∀ vs bs, meaning c e env = some vs → bools vs = some bs →
    bs.length = operandCount e := by
  have one : ∀ vs bs, (∃ v, vs = [v]) → bools vs = some bs → bs.length = 1 := by
    rintro _ bs ⟨v, rfl⟩ h
    rw [← List.length_map (f := Val.bool), ← bools_map h]
    rfl
  have two : ∀ v w vs bs, vs = [Val.int v, w] → bools vs = some bs → bs.length = 1 := by
    rintro v w _ bs rfl h
    simp [bools] at h
  induction e generalizing env with
  | seq a b iha ihb =>
    intro vs bs hm hb
    simp only [meaning] at hm
    split at hm
    · rename_i x y hx hy
      injection hm with hm
      subst hm
      have hxy := bools_map hb
      have hy' : ∃ b1, bools y = some b1 := by
        cases hq : bools y with
        | some q => exact ⟨q, rfl⟩
        | none =>
          exfalso
          have : ∀ (y x : List Val), bools y = none → bools (y ++ x) = none := by
            intro y x h
            induction y with
            | nil => simp [bools] at h
            | cons v vs ih => cases v <;> simp [bools] at h ⊢; exact ih h
          rw [this _ _ hq] at hb
          simp at hb
      obtain ⟨b1, hb1⟩ := hy'
      have hx' : ∃ b2, bools x = some b2 := by
        cases hq : bools x with
        | some q => exact ⟨q, rfl⟩
        | none => rw [bools_append hb1 hq] at hb; simp at hb
      obtain ⟨b2, hb2⟩ := hx'
      have := congrArg List.length hxy
      rw [List.length_append, List.length_map] at this
      have e1 := congrArg List.length (bools_map hb1)
      have e2 := congrArg List.length (bools_map hb2)
      rw [List.length_map] at e1 e2
      rw [operandCount, ← iha env x b2 hx hb2, ← ihb env y b1 hy hb1]
      omega
    · simp at hm
  | addAddr a b =>
    intro vs bs hm hb
    simp only [meaning] at hm
    split at hm
    · injection hm with hm
      exact two _ _ _ _ hm.symm hb
    · simp at hm
  | adjust a =>
    intro vs bs hm hb
    simp only [meaning] at hm
    split at hm
    · injection hm with hm
      exact two _ _ _ _ hm.symm hb
    · simp at hm
  | clamp a =>
    intro vs bs hm hb
    simp only [meaning] at hm
    split at hm
    · split at hm
      · simp at hm
      · injection hm with hm
        exact two _ _ _ _ hm.symm hb
    · simp at hm
  | wrdaddr =>
    intro vs bs hm hb
    simp only [meaning] at hm
    injection hm with hm
    exact two _ _ _ _ hm.symm hb
  | _ =>
    intro vs bs hm hb
    refine one vs bs ?_ hb
    simp only [meaning] at hm
    first
    | (injection hm with hm; exact ⟨_, hm.symm⟩)
    | (simp only [Option.map_eq_some_iff] at hm; obtain ⟨v, _, rfl⟩ := hm; exact ⟨_, rfl⟩)
    | (simp at hm; done)
    | (split at hm <;> first
        | (simp at hm; done)
        | (simp only [Option.map_eq_some_iff] at hm; obtain ⟨v, _, rfl⟩ := hm; exact ⟨_, rfl⟩)
        | (injection hm with hm; exact ⟨_, hm.symm⟩)
        | (split at hm <;> first
          | (simp at hm; done)
          | (injection hm with hm; exact ⟨_, hm.symm⟩)))
    | (simp only [Option.bind_eq_some_iff] at hm
       obtain ⟨l, _, hm⟩ := hm
       split at hm
       · simp at hm
       · injection hm with hm; exact ⟨_, hm.symm⟩)

theorem andLoop (c : Ctx) (code : List Cell) (bs : List Bool) (hne : bs ≠ []) (h : ∀ b ∈ bs.dropLast, b = true) (n : Nat) (hn : bs.length = n + 1)
    (pc : Nat) (st : List Val) (ls : List Loop) (slots : List (Option Val)) (feats : List Key)
    (hat : At code pc (List.replicate n (.op .and))) :
    Steps c code ⟨pc, bs.map .bool ++ st, ls, slots, feats⟩ ⟨pc + n, [.bool (bs.all id)] ++ st, ls, slots, feats⟩ := by
  induction n generalizing bs pc with
  | zero =>
    obtain ⟨b, rfl⟩ := List.length_eq_one_iff.1 hn
    simpa using Steps.refl _
  | succ n ih =>
    match bs, hn with
    | b :: b' :: bs, hn =>
      have hb : b = true := h b (by simp)
      subst hb
      rw [List.replicate_succ] at hat
      have h2 := At.append (a := [.op .and]) (b := List.replicate n (.op .and)) hat
      refine Steps.head (s' := ⟨pc + 1, (b' :: bs).map .bool ++ st, ls, slots, feats⟩) ?_ ?_
      · rw [step0 h2.1 rfl]
        simp [exec, State.next, Op.operands]
      · have := ih (b' :: bs) (by simp) (fun b hb => h b (by simp [List.dropLast_cons_of_ne_nil, hb])) (by simpa using hn) (pc + 1) h2.2
        simpa [Nat.add_assoc, Nat.add_comm 1 n] using this

theorem orLoop (c : Ctx) (code : List Cell) (bs : List Bool) (hne : bs ≠ []) (h : ∀ b ∈ bs.dropLast, b = false) (n : Nat) (hn : bs.length = n + 1)
    (pc : Nat) (st : List Val) (ls : List Loop) (slots : List (Option Val)) (feats : List Key)
    (hat : At code pc (List.replicate n (.op .or))) :
    Steps c code ⟨pc, bs.map .bool ++ st, ls, slots, feats⟩ ⟨pc + n, [.bool (bs.any id)] ++ st, ls, slots, feats⟩ := by
  induction n generalizing bs pc with
  | zero =>
    obtain ⟨b, rfl⟩ := List.length_eq_one_iff.1 hn
    simpa using Steps.refl _
  | succ n ih =>
    match bs, hn with
    | b :: b' :: bs, hn =>
      have hb : b = false := h b (by simp)
      subst hb
      rw [List.replicate_succ] at hat
      have h2 := At.append (a := [.op .or]) (b := List.replicate n (.op .or)) hat
      refine Steps.head (s' := ⟨pc + 1, (b' :: bs).map .bool ++ st, ls, slots, feats⟩) ?_ ?_
      · rw [step0 h2.1 rfl]
        simp [exec, State.next, Op.operands]
      · have := ih (b' :: bs) (by simp) (fun b hb => h b (by simp [List.dropLast_cons_of_ne_nil, hb])) (by simpa using hn) (pc + 1) h2.2
        simpa [Nat.add_assoc, Nat.add_comm 1 n] using this

theorem strings_iff (vs : List Val) (l : List Str) : strings vs = some l ↔ vs = l.map .str := by
  induction vs generalizing l with
  | nil => cases l <;> simp [strings]
  | cons v vs ih =>
    cases l with
    | nil => cases v <;> simp [strings]
    | cons x xs => cases v <;> simp [strings, ih]; exact and_comm

theorem words_iff (vs : List Val) (l : List Morpheme) : words vs = some l ↔ vs = l.map .wrd := by
  induction vs generalizing l with
  | nil => cases l <;> simp [words]
  | cons v vs ih =>
    cases l with
    | nil => cases v <;> simp [words]
    | cons x xs => cases v <;> simp [words, ih]; exact and_comm

theorem foreach_next {c : Ctx} {v : Val} {ys : List Val} (hv : elems v = some ys) {i : Nat} {y : Val} (hy : ys[i]? = some y)
    (a b pc ini : Nat) (st : List Val) (acc : Val) (ls : List Loop) (slots : List (Option Val)) (feats : List Key) :
    exec c .foreach a b ⟨pc, st, ⟨ini, v, i, acc⟩ :: ls, slots, feats⟩ =
      .ok (some ⟨pc + 3, st, ⟨ini, v, i, acc⟩ :: ls, (slots ++ List.replicate (a + 1 - slots.length) none).set a (some y), feats⟩) := by
  cases v with
  | strs l =>
    simp only [elems, Option.some.injEq] at hv
    subst hv
    have hi : i < l.length := by
      have := List.getElem?_eq_some_iff.1 hy
      obtain ⟨h, _⟩ := this
      simpa using h
    rw [List.getElem?_map] at hy
    cases hx : l[i]? with
    | none => rw [hx] at hy; simp at hy
    | some x =>
      rw [hx] at hy
      simp only [Option.map_some, Option.some.injEq] at hy
      subst hy
      simp only [exec, hx]
      rw [if_neg (by omega)]
  | wrds l =>
    simp only [elems, Option.some.injEq] at hv
    subst hv
    have hi : i < l.length := by
      have := List.getElem?_eq_some_iff.1 hy
      obtain ⟨h, _⟩ := this
      simpa using h
    rw [List.getElem?_map] at hy
    cases hx : l[i]? with
    | none => rw [hx] at hy; simp at hy
    | some x =>
      rw [hx] at hy
      simp only [Option.map_some, Option.some.injEq] at hy
      subst hy
      simp only [exec, hx]
      rw [if_neg (by omega)]
  | _ => simp [elems] at hv

theorem foreach_end {c : Ctx} {v : Val} {ys : List Val} (hv : elems v = some ys)
    (a b pc ini : Nat) (st : List Val) (acc : Val) (ls : List Loop) (slots : List (Option Val)) (feats : List Key) :
    exec c .foreach a b ⟨pc, st, ⟨ini, v, ys.length, acc⟩ :: ls, slots, feats⟩ =
      .ok (some ⟨pc + 3 + b, acc :: st, ls, slots, feats⟩) := by
  cases v with
  | strs l =>
    simp only [elems, Option.some.injEq] at hv
    subst hv
    simp [exec]
  | wrds l =>
    simp only [elems, Option.some.injEq] at hv
    subst hv
    simp [exec]
  | _ => simp [elems] at hv

/-- The value of a loop after `i` rounds. -/
def AccOf (w : Bool) (i : Nat) (done : List Val) (acc : Val) : Prop := (i = 0 ∧ done = []) ∨ (0 < i ∧ collect w done = some acc)

theorem endforeach_step {c : Ctx} {w : Bool} {i : Nat} {done rest : List Val} {acc r R : Val} (hacc : AccOf w i done acc)
    (hR : collect w (done ++ r :: rest) = some R)
    (a pc : Nat) (v : Val) (st : List Val) (ls : List Loop) (slots : List (Option Val)) (feats : List Key) :
    ∃ acc', AccOf w (i + 1) (done ++ [r]) acc' ∧
    exec c .endforeach a 0 ⟨pc, r :: st, ⟨st.length, v, i, acc⟩ :: ls, slots, feats⟩ =
      .ok (some ⟨pc + 2 - a, st, ⟨st.length, v, i + 1, acc'⟩ :: ls, slots, feats⟩) := by
  cases w with
  | false =>
    simp only [collect, Option.map_eq_some_iff] at hR
    obtain ⟨l, hl, rfl⟩ := hR
    rw [strings_iff] at hl
    obtain ⟨l1, l2, rfl, h1, h2⟩ := List.append_eq_map_iff.1 hl
    obtain ⟨x, l3, rfl, h3, h4⟩ := List.map_eq_cons_iff.1 h2
    subst h3
    refine ⟨.strs (l1 ++ [x]), Or.inr ⟨by omega, ?_⟩, ?_⟩
    · simp only [collect, Option.map_eq_some_iff]
      exact ⟨_, (strings_iff _ _).2 (by rw [← h1]; simp), rfl⟩
    · rcases hacc with ⟨rfl, rfl⟩ | ⟨hi, hacc⟩
      · have : l1 = [] := by simpa using h1
        subst this
        simp [exec]
      · simp only [collect, Option.map_eq_some_iff] at hacc
        obtain ⟨l', hl', rfl⟩ := hacc
        rw [strings_iff] at hl'
        have : l' = l1 := by
          rw [hl'] at h1
          exact (List.map_inj_right (by simp)).1 h1.symm
        subst this
        simp only [exec]
        rw [if_pos (by simp), if_neg (by omega)]
  | true =>
    simp only [collect, Option.map_eq_some_iff] at hR
    obtain ⟨l, hl, rfl⟩ := hR
    rw [words_iff] at hl
    obtain ⟨l1, l2, rfl, h1, h2⟩ := List.append_eq_map_iff.1 hl
    obtain ⟨x, l3, rfl, h3, h4⟩ := List.map_eq_cons_iff.1 h2
    subst h3
    refine ⟨.wrds (l1 ++ [x]), Or.inr ⟨by omega, ?_⟩, ?_⟩
    · simp only [collect, Option.map_eq_some_iff]
      exact ⟨_, (words_iff _ _).2 (by rw [← h1]; simp), rfl⟩
    · rcases hacc with ⟨rfl, rfl⟩ | ⟨hi, hacc⟩
      · have : l1 = [] := by simpa using h1
        subst this
        simp [exec]
      · simp only [collect, Option.map_eq_some_iff] at hacc
        obtain ⟨l', hl', rfl⟩ := hacc
        rw [words_iff] at hl'
        have : l' = l1 := by
          rw [hl'] at h1
          exact (List.map_inj_right (by simp)).1 h1.symm
        subst this
        simp only [exec]
        rw [if_pos (by simp), if_neg (by omega)]

theorem Agree.slot {env : Env} {slots : List (Option Val)} (h : Agree env slots) {k : Nat} {y : Val} (hk : env k = none) :
    Agree (upd env k y) ((slots ++ List.replicate (k + 1 - slots.length) none).set k (some y)) := by
  intro j v hj
  unfold upd at hj
  split at hj
  · rename_i he
    subst he
    rw [List.getElem?_set_self (by simp; omega)]
    rw [hj]
  · rename_i hne
    rw [List.getElem?_set_ne (by omega)]
    have := h j v hj
    have hl : j < slots.length := by
      obtain ⟨hl, _⟩ := List.getElem?_eq_some_iff.1 this
      exact hl
    rw [List.getElem?_append_left hl, this]

theorem Agree.restrict {env : Env} {slots : List (Option Val)} {k : Nat} {y : Val} (h : Agree (upd env k y) slots) (hk : env k = none) :
    Agree env slots := by
  intro j v hj
  refine h j v ?_
  unfold upd
  rw [if_neg (by rintro rfl; rw [hk] at hj; simp at hj), hj]

theorem forEachLoop {c : Ctx} {w : Bool} {k : Nat} {body : Expr} {env : Env} {v : Val} {ys : List Val} (hv : elems v = some ys)
    (hbody : ∀ env, Right c body env) (hcl : ∀ x ∈ ys, Clean c body (upd env k x))
    (hslots : ∀ j ∈ slotsOf body, env j = none) (hk : env k = none) (hkb : k ∉ slotsOf body) (hlen : (compile body).length + 5 < 128)
    {code : List Cell} {pc : Nat} {st : List Val} {ls : List Loop} {feats : List Key} {R : Val}
    (hat : At code pc ([.op .foreach, .arg k, .arg (((compile body).length + 2) % 256)] ++ compile body ++
      [.op .endforeach, .arg ((compile body).length + 5)])) (hne : ys ≠ []) :
    ∀ (rest : List Val) (i : Nat) (done : List Val) (acc : Val) (slots : List (Option Val)) (rs : List Val),
      ys.drop i = rest → i ≤ ys.length →
      each (fun x => (meaning c body (upd env k x)).bind one) rest = some rs →
      AccOf w i done acc → collect w (done ++ rs) = some R → Agree env slots →
      ∃ slots', Agree env slots' ∧
        Steps c code ⟨pc, st, ⟨st.length, v, i, acc⟩ :: ls, slots, feats⟩
          ⟨pc + (compile body).length + 5, R :: st, ls, slots', feats⟩ := by
  obtain ⟨hat1, hatE⟩ := hat.append
  obtain ⟨hatF, hatB⟩ := hat1.append
  have hatE : At code (pc + 3 + (compile body).length) [.op .endforeach, .arg ((compile body).length + 5)] := by
    have e : pc + ([Cell.op .foreach, .arg k, .arg (((compile body).length + 2) % 256)] ++ compile body).length = pc + 3 + (compile body).length := by
      simp only [List.length_append, List.length_cons, List.length_nil]
      omega
    rwa [e] at hatE
  have hatB : At code (pc + 3) (compile body) := hatB
  intro rest
  induction rest with
  | nil =>
    intro i done acc slots rs hd hi he hacc hcol hag
    simp only [each, Option.some.injEq] at he
    subst he
    have : i = ys.length := by
      have := congrArg List.length hd
      simp at this
      omega
    subst this
    have hacc' : acc = R := by
      rcases hacc with ⟨h0, _⟩ | ⟨_, h⟩
      · exact absurd (List.length_eq_zero_iff.1 h0) hne
      · rw [List.append_nil, h] at hcol
        exact Option.some.inj hcol
    subst hacc'
    refine ⟨slots, hag, Steps.single ?_⟩
    rw [step2 (s := ⟨pc, st, ⟨st.length, v, ys.length, acc⟩ :: ls, slots, feats⟩) hatF rfl, foreach_end hv, Nat.mod_eq_of_lt (by omega)]
    congr 3
    omega
  | cons y rest ih =>
    intro i done acc slots rs hd hi he hacc hcol hag
    have hy : ys[i]? = some y := by
      have := congrArg (·[0]?) hd
      simpa using this
    have hym : y ∈ ys := List.mem_of_getElem? hy
    simp only [each, Option.bind_eq_some_iff, Option.map_eq_some_iff] at he
    obtain ⟨r, ⟨ws, hws, hone⟩, rs', hrs', rfl⟩ := he
    have hw1 : ws = [r] := by
      unfold one at hone
      split at hone
      · simpa using hone
      · simp at hone
    subst hw1
    have hi' : i < ys.length := by
      obtain ⟨h, _⟩ := List.getElem?_eq_some_iff.1 hy
      exact h
    obtain ⟨slB, hagB, hstB⟩ := hbody (upd env k y) [r] hws (hcl y hym)
      (fun j hj => by
        unfold upd
        rw [if_neg (by rintro rfl; exact hkb hj)]
        exact hslots j hj)
      code (pc + 3) st (⟨st.length, v, i, acc⟩ :: ls) _ feats hatB (hag.slot (y := y) hk)
    obtain ⟨acc', hacc', hE⟩ := endforeach_step (c := c) hacc hcol ((compile body).length + 5) (pc + 3 + (compile body).length) v st ls slB feats
    obtain ⟨sl', hag', hst'⟩ := ih (i + 1) (done ++ [r]) acc' slB rs'
      (by rw [← List.drop_drop, hd]; rfl) hi' hrs' hacc' (by simpa using hcol) (hagB.restrict hk)
    refine ⟨sl', hag', ?_⟩
    refine Steps.head ?_ (hstB.trans (Steps.head ?_ hst'))
    · rw [step2 (s := ⟨pc, st, ⟨st.length, v, i, acc⟩ :: ls, slots, feats⟩) hatF rfl]
      exact foreach_next hv hy _ _ _ _ _ _ _ _ _
    · rw [step1 (s := ⟨pc + 3 + (compile body).length, [r] ++ st, ⟨st.length, v, i, acc⟩ :: ls, slB, feats⟩) hatE rfl]
      rw [List.singleton_append, hE]
      congr 3
      omega

theorem unOp {c : Ctx} {code : List Cell} {pc : Nat} {o : Op} {ws vs st : List Val} {ls : List Loop} {slots : List (Option Val)} {feats : List Key}
    (hat : At code pc [.op o]) (ho : o.operands = 0)
    (h : exec c o 0 0 ⟨pc, ws ++ st, ls, slots, feats⟩ = State.next ⟨pc, ws ++ st, ls, slots, feats⟩ o (vs ++ st)) :
    Steps c code ⟨pc, ws ++ st, ls, slots, feats⟩ ⟨pc + ([Cell.op o]).length, vs ++ st, ls, slots, feats⟩ := by
  refine Steps.single ?_
  rw [step0 (s := ⟨pc, ws ++ st, ls, slots, feats⟩) hat ho, h]
  simp [State.next, ho]

theorem unOp1 {c : Ctx} {code : List Cell} {pc k : Nat} {o : Op} {ws vs st : List Val} {ls : List Loop} {slots : List (Option Val)}
    {feats : List Key} (hat : At code pc [.op o, .arg k]) (ho : o.operands = 1)
    (h : exec c o k 0 ⟨pc, ws ++ st, ls, slots, feats⟩ = State.next ⟨pc, ws ++ st, ls, slots, feats⟩ o (vs ++ st)) :
    Steps c code ⟨pc, ws ++ st, ls, slots, feats⟩ ⟨pc + ([Cell.op o, .arg k]).length, vs ++ st, ls, slots, feats⟩ := by
  refine Steps.single ?_
  rw [step1 (s := ⟨pc, ws ++ st, ls, slots, feats⟩) hat ho, h]
  simp [State.next, ho]

/-- **C58**, expressions. -/
theorem right (c : Ctx) (e : Expr) : Fits e → ∀ env, Right c e env := by
  induction e with
  | sentlen =>
    intro _ env
    refine Right.leaf fun vs hm _ code pc st ls slots feats hat hag => ?_
    simp only [meaning, Option.some.injEq] at hm
    subst hm
    exact unOp (ws := []) hat rfl rfl
  | pathlen => intro _ env vs hm; simp [meaning] at hm
  | tokaddr =>
    intro _ env
    refine Right.leaf fun vs hm _ code pc st ls slots feats hat hag => ?_
    simp only [meaning, Option.some.injEq] at hm
    subst hm
    exact unOp (ws := []) hat rfl rfl
  | wrdidx =>
    intro _ env
    refine Right.leaf fun vs hm _ code pc st ls slots feats hat hag => ?_
    simp only [meaning, Option.some.injEq] at hm
    subst hm
    exact unOp (ws := []) hat rfl rfl
  | wrdaddr =>
    intro _ env
    refine Right.leaf fun vs hm _ code pc st ls slots feats hat hag => ?_
    simp only [meaning, Option.some.injEq] at hm
    subst hm
    exact unOp (ws := []) hat rfl rfl
  | lit i =>
    intro hf env
    refine Right.leaf fun vs hm _ code pc st ls slots feats hat hag => ?_
    simp only [meaning, Option.some.injEq] at hm
    subst hm
    obtain ⟨n, hn, hi⟩ := toInt8_intByte i hf
    simp only [compile, hn] at hat ⊢
    refine unOp1 (ws := []) hat rfl ?_
    simp [exec, hi]
  | add a b iha ihb =>
    intro hf env
    refine Right.binary (iha hf.1 env) (ihb hf.2 env) rfl rfl (fun h => h) fun vs hm _ => ?_
    simp only [meaning] at hm
    split at hm
    · rename_i x y hx hy
      injection hm with hm
      subst hm
      exact ⟨_, _, hx, hy, fun code pc st ls slots feats hat => unOp (ws := [.int y, .int x]) hat rfl (by simp [exec, Int.add_comm])⟩
    · simp at hm
  | gvar k =>
    intro _ env
    refine Right.leaf fun vs hm _ code pc st ls slots feats hat hag => ?_
    simp only [meaning, Option.map_eq_some_iff] at hm
    obtain ⟨v, hv, rfl⟩ := hm
    exact unOp1 (ws := []) hat rfl (by simp [exec, hv])
  | var k =>
    intro _ env
    refine Right.leaf fun vs hm _ code pc st ls slots feats hat hag => ?_
    simp only [meaning, Option.map_eq_some_iff] at hm
    obtain ⟨v, hv, rfl⟩ := hm
    exact unOp1 (ws := []) hat rfl (by simp [exec, hag k v hv])
  | seq a b iha ihb =>
    intro hf env
    refine Right.binary (tail := []) (iha hf.1 env) (ihb hf.2 env) (by simp [compile]) rfl (fun h => h) fun vs hm _ => ?_
    simp only [meaning] at hm
    split at hm
    · rename_i x y hx hy
      injection hm with hm
      subst hm
      refine ⟨_, _, hx, hy, fun code pc st ls slots feats hat => ?_⟩
      rw [List.append_assoc]
      exact .refl _
    · simp at hm
  | and e ih =>
    intro hf env
    refine Right.unary (ih hf env) rfl rfl (fun h => h.1) fun vs hm hcl => ?_
    simp only [meaning, Option.bind_eq_some_iff] at hm
    obtain ⟨bs, ⟨ws, hws, hbs⟩, hm⟩ := hm
    split at hm
    · simp at hm
    · rename_i hne
      injection hm with hm
      subst hm
      refine ⟨ws, hws, fun code pc st ls slots feats hat => ?_⟩
      rw [bools_map hbs]
      have hn := bools_count c e env ws bs hws hbs
      have hpos : 0 < bs.length := List.length_pos_iff.2 hne
      have := andLoop c code bs hne (hcl.2 bs (by rw [hws]; exact hbs)) (operandCount e - 1) (by omega) pc st ls slots feats hat
      simpa using this
  | or e ih =>
    intro hf env
    refine Right.unary (ih hf env) rfl rfl (fun h => h.1) fun vs hm hcl => ?_
    simp only [meaning, Option.bind_eq_some_iff] at hm
    obtain ⟨bs, ⟨ws, hws, hbs⟩, hm⟩ := hm
    split at hm
    · simp at hm
    · rename_i hne
      injection hm with hm
      subst hm
      refine ⟨ws, hws, fun code pc st ls slots feats hat => ?_⟩
      rw [bools_map hbs]
      have hn := bools_count c e env ws bs hws hbs
      have hpos : 0 < bs.length := List.length_pos_iff.2 hne
      have := orLoop c code bs hne (hcl.2 bs (by rw [hws]; exact hbs)) (operandCount e - 1) (by omega) pc st ls slots feats hat
      simpa using this
  | not e ih =>
    intro hf env
    refine Right.unary (ih hf env) rfl rfl (fun h => h) fun vs hm hcl => ?_
    simp only [meaning] at hm
    split at hm
    · rename_i x hx
      injection hm with hm
      subst hm
      exact ⟨_, hx, fun code pc st ls slots feats hat => unOp hat rfl rfl⟩
    · simp at hm
  | cmp o a b iha ihb =>
    intro hf env
    refine Right.binary (iha hf.1 env) (ihb hf.2 env) rfl rfl (fun h => ⟨h.1, h.2.1⟩) fun vs hm hcl => ?_
    simp only [meaning] at hm
    split at hm
    · rename_i x y hx hy
      injection hm with hm
      subst hm
      refine ⟨_, _, hx, hy, fun code pc st ls slots feats hat => unOp (ws := [.int y, .int x]) hat (by cases o <;> rfl) ?_⟩
      have := hcl.2.2
      cases o with
      | eq => simp [exec, Cmp.op, Cmp.holds, eq_comm]
      | neq => simp [exec, Cmp.op, Cmp.holds, eq_comm]
      | _ =>
        have hl : c.leftFirst = false := by simpa using this
        simp [exec, Cmp.op, Cmp.holds, ordered, hl]
    · simp at hm
  | streq k e ih =>
    intro hf env
    refine Right.unary (ih hf env) rfl rfl (fun h => h) fun vs hm hcl => ?_
    simp only [meaning] at hm
    split at hm
    · rename_i x y hx hy
      injection hm with hm
      subst hm
      exact ⟨_, hx, fun code pc st ls slots feats hat => unOp1 hat rfl (by simp [exec, hy, eq_comm])⟩
    · simp at hm
  | strin k e ih =>
    intro hf env
    refine Right.unary (ih hf env) rfl rfl (fun h => h) fun vs hm hcl => ?_
    simp only [meaning] at hm
    split at hm
    · rename_i x y hx hy
      injection hm with hm
      subst hm
      exact ⟨_, hx, fun code pc st ls slots feats hat => unOp1 hat rfl (by simp [exec, hy])⟩
    · simp at hm
  | sethasany k e ih =>
    intro hf env
    refine Right.unary (ih hf env) rfl rfl (fun h => h) fun vs hm hcl => ?_
    simp only [meaning] at hm
    split at hm
    · rename_i x y hx hy
      injection hm with hm
      subst hm
      refine ⟨_, hx, fun code pc st ls slots feats hat => unOp1 hat rfl ?_⟩
      simp only [exec, hy, List.cons_append, List.nil_append]
      congr 3
      rw [Bool.eq_iff_iff]
      simp
    · simp at hm
  | sethasall k e ih =>
    intro hf env
    refine Right.unary (ih hf env) rfl rfl (fun h => h) fun vs hm hcl => ?_
    simp only [meaning] at hm
    split at hm
    · rename_i x y hx hy
      injection hm with hm
      subst hm
      refine ⟨_, hx, fun code pc st ls slots feats hat => unOp1 hat rfl ?_⟩
      simp only [exec, hy, List.cons_append, List.nil_append]
      congr 3
      rw [Bool.eq_iff_iff]
      simp
    · simp at hm
  | addAddr a b iha ihb =>
    intro hf env
    refine Right.binary (iha hf.1 env) (ihb hf.2 env) rfl rfl (fun h => h) fun vs hm _ => ?_
    simp only [meaning] at hm
    split at hm
    · rename_i w t w' t' hx hy
      injection hm with hm
      subst hm
      exact ⟨_, _, hx, hy, fun code pc st ls slots feats hat => unOp (ws := [.int w', .int t', .int w, .int t]) hat rfl (by simp [exec])⟩
    · simp at hm
  | adjust e ih =>
    intro hf env
    refine Right.unary (ih hf env) rfl rfl (fun h => h) fun vs hm hcl => ?_
    simp only [meaning] at hm
    split at hm
    · rename_i w t hx
      injection hm with hm
      subst hm
      exact ⟨_, hx, fun code pc st ls slots feats hat => unOp hat rfl rfl⟩
    · simp at hm
  | clamp e ih =>
    intro hf env
    refine Right.unary (ih hf env) rfl rfl (fun h => h) fun vs hm hcl => ?_
    simp only [meaning] at hm
    split at hm
    · rename_i w t hx
      split at hm
      · simp at hm
      · rename_i hne
        injection hm with hm
        subst hm
        exact ⟨_, hx, fun code pc st ls slots feats hat => unOp hat rfl (by simp [exec, hne])⟩
    · simp at hm
  | wordoid e ih =>
    intro hf env
    refine Right.unary (ih hf env) rfl rfl (fun h => h) fun vs hm hcl => ?_
    simp only [meaning] at hm
    split at hm
    · rename_i w t hx
      injection hm with hm
      subst hm
      exact ⟨_, hx, fun code pc st ls slots feats hat => unOp hat rfl rfl⟩
    · simp at hm
  | surf e ih =>
    intro hf env
    refine Right.unary (ih hf env) rfl rfl (fun h => h) fun vs hm hcl => ?_
    simp only [meaning] at hm
    split at hm
    · rename_i t hx
      injection hm with hm
      subst hm
      exact ⟨_, hx, fun code pc st ls slots feats hat => unOp hat rfl rfl⟩
    · simp at hm
  | lem e ih =>
    intro hf env
    refine Right.unary (ih hf env) rfl rfl (fun h => h) fun vs hm hcl => ?_
    simp only [meaning] at hm
    split at hm
    · rename_i t hx
      injection hm with hm
      subst hm
      exact ⟨_, hx, fun code pc st ls slots feats hat => unOp hat rfl rfl⟩
    · simp at hm
  | coarse e ih =>
    intro hf env
    refine Right.unary (ih hf env) rfl rfl (fun h => h) fun vs hm hcl => ?_
    simp only [meaning] at hm
    split at hm
    · rename_i t hx
      injection hm with hm
      subst hm
      exact ⟨_, hx, fun code pc st ls slots feats hat => unOp hat rfl rfl⟩
    · simp at hm
  | join k e ih =>
    intro hf env
    refine Right.unary (ih hf env) rfl rfl (fun h => h.1) fun vs hm hcl => ?_
    simp only [meaning] at hm
    split at hm
    · rename_i l sep hx hy
      injection hm with hm
      subst hm
      refine ⟨_, hx, fun code pc st ls slots feats hat => unOp1 hat rfl ?_⟩
      simp only [exec, hy, List.cons_append, List.nil_append, joinLoop_eq sep l (hcl.2 l hx)]
    · simp at hm
  | tags e ih =>
    intro hf env
    refine Right.unary (ih hf env) rfl rfl (fun h => h) fun vs hm hcl => ?_
    simp only [meaning] at hm
    split at hm
    · rename_i t hx
      injection hm with hm
      subst hm
      exact ⟨_, hx, fun code pc st ls slots feats hat => unOp hat rfl rfl⟩
    · simp at hm
  | ambgset e ih =>
    intro hf env
    refine Right.unary (ih hf env) rfl rfl (fun h => h) fun vs hm hcl => ?_
    simp only [meaning] at hm
    split at hm
    · rename_i t hx
      split at hm
      · simp at hm
      · rename_i hne
        injection hm with hm
        subst hm
        refine ⟨_, hx, fun code pc st ls slots feats hat => unOp hat rfl ?_⟩
        simp only [exec, List.cons_append, List.nil_append, if_neg hne, ambgTag_eq]
    · simp at hm
  | wordoids e ih =>
    intro hf env
    refine Right.unary (ih hf env) rfl rfl (fun h => h) fun vs hm hcl => ?_
    simp only [meaning] at hm
    split at hm
    · rename_i t hx
      injection hm with hm
      subst hm
      exact ⟨_, hx, fun code pc st ls slots feats hat => unOp hat rfl rfl⟩
    · simp at hm
  | slice b e x ih =>
    intro hf env
    refine Right.unary (ih hf.1 env) rfl rfl (fun h => h.1) fun vs hm hcl => ?_
    obtain ⟨nb, hnb, hb⟩ := toInt8_intByte b ⟨hf.2.1, hf.2.2.1⟩
    obtain ⟨ne, hne, he⟩ := toInt8_intByte e ⟨hf.2.2.2.1, hf.2.2.2.2⟩
    simp only [meaning] at hm
    split at hm
    · rename_i l hx
      simp only [Option.map_eq_some_iff] at hm
      obtain ⟨r, hr, rfl⟩ := hm
      obtain ⟨h0, h1⟩ := hcl.2 _ _ hx rfl
      refine ⟨_, hx, fun code pc st ls slots feats hat => Steps.single ?_⟩
      rw [hnb, hne] at hat ⊢
      rw [step2 (s := ⟨pc, [Val.str l] ++ st, ls, slots, feats⟩) hat rfl]
      simp only [exec, List.cons_append, List.nil_append, hb, he, sliceList_eq l b e r hr h0 h1]
      rfl
    · rename_i l hx
      simp only [Option.map_eq_some_iff] at hm
      obtain ⟨r, hr, rfl⟩ := hm
      obtain ⟨h0, h1⟩ := hcl.2 _ _ hx rfl
      refine ⟨_, hx, fun code pc st ls slots feats hat => Steps.single ?_⟩
      rw [hnb, hne] at hat ⊢
      rw [step2 (s := ⟨pc, [Val.strs l] ++ st, ls, slots, feats⟩) hat rfl]
      simp only [exec, List.cons_append, List.nil_append, hb, he, sliceList_eq l b e r hr h0 h1]
      rfl
    · rename_i l hx
      simp only [Option.map_eq_some_iff] at hm
      obtain ⟨r, hr, rfl⟩ := hm
      obtain ⟨h0, h1⟩ := hcl.2 _ _ hx rfl
      refine ⟨_, hx, fun code pc st ls slots feats hat => Steps.single ?_⟩
      rw [hnb, hne] at hat ⊢
      rw [step2 (s := ⟨pc, [Val.wrds l] ++ st, ls, slots, feats⟩) hat rfl]
      simp only [exec, List.cons_append, List.nil_append, hb, he, sliceList_eq l b e r hr h0 h1]
      rfl
    · simp at hm
  | subscript i x ih =>
    intro hf env
    refine Right.unary (ih hf env) rfl rfl (fun h => h) fun vs hm hcl => ?_
    have sub : ∀ {α : Type} (l : List α) (r : α), l[i]? = some r → subscriptList l i = some r := by
      intro α l r h
      obtain ⟨hi, _⟩ := List.getElem?_eq_some_iff.1 h
      rw [subscriptList, Nat.min_eq_left (by omega), h]
    simp only [meaning] at hm
    split at hm
    · rename_i l hx
      simp only [Option.map_eq_some_iff] at hm
      obtain ⟨r, hr, rfl⟩ := hm
      exact ⟨_, hx, fun code pc st ls slots feats hat => unOp1 hat rfl (by simp [exec, sub l r hr])⟩
    · rename_i l hx
      simp only [Option.map_eq_some_iff] at hm
      obtain ⟨r, hr, rfl⟩ := hm
      exact ⟨_, hx, fun code pc st ls slots feats hat => unOp1 hat rfl (by simp [exec, sub l r hr])⟩
    · simp at hm
  | forEach w k src body ihs ihb =>
    intro hf env vs hm hcl hsl code pc st ls slots feats hat hag
    obtain ⟨hf1, hf2, hk, hlen⟩ := hf
    simp only [meaning] at hm
    split at hm
    · rename_i v hv
      simp only [Option.map_eq_some_iff, Option.bind_eq_some_iff] at hm
      obtain ⟨R, ⟨ys, hys, rs, hrs, hR⟩, rfl⟩ := hm
      obtain ⟨hne, hcb⟩ := hcl.2 v ys hv hys
      simp only [compile, List.append_assoc] at hat
      obtain ⟨hat1, hat2⟩ := hat.append
      obtain ⟨sl, hag1, hst1⟩ := ihs hf1 env [v] hv hcl.1 (fun j hj => hsl j (by simp [slotsOf, hj])) code pc st ls slots feats hat1 hag
      have hatI : At code (pc + (compile src).length) [.op .foreachinit] := (At.append (a := [.op .foreachinit]) hat2).1
      have hatL : At code (pc + (compile src).length + 1) ([.op .foreach, .arg k, .arg (((compile body).length + 2) % 256)] ++ compile body ++
          [.op .endforeach, .arg ((compile body).length + 5)]) := by
        have := (At.append (a := [.op .foreachinit]) hat2).2
        simpa [List.append_assoc] using this
      obtain ⟨sl', hag', hst'⟩ := forEachLoop (c := c) (w := w) (st := st) (ls := ls) (feats := feats) (R := R) hys (ihb hf2) hcb (fun j hj => hsl j (by simp [slotsOf, hj]))
        (hsl k (by simp [slotsOf])) hk hlen hatL hne ys 0 [] (.int 0) sl rs (by simp) (by omega) hrs (Or.inl ⟨rfl, rfl⟩) (by simpa using hR) hag1
      refine ⟨sl', hag', hst1.trans (Steps.head (s' := ⟨pc + (compile src).length + 1, st, ⟨st.length, v, 0, .int 0⟩ :: ls, sl, feats⟩) ?_ ?_)⟩
      · rw [step0 (s := ⟨pc + (compile src).length, [v] ++ st, ls, sl, feats⟩) hatI rfl]
        simp [exec]
      · have e : pc + (compile (.forEach w k src body)).length = pc + (compile src).length + 1 + (compile body).length + 5 := by
          simp [compile]
          omega
        rw [e]
        exact hst'
    · simp at hm

end Verif.VM
