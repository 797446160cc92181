import Verif.Transfer.Props
import Verif.Transfer.Proofs
import Verif.Transfer.More
import Verif.Parts.Props
import Verif.Chunk.Word
import Verif.Postchunk.Model
/-!
# C79: what the instructions of apertium-postchunk mean, and where word-bound blanks go
-/
namespace Verif.Postchunk
open Verif.Transfer
open Verif.Stream (Atom)

/-! ## The meaning of expressions -/

/-- What a rule, or the body of a macro, sees: the words at the positions 0 (the head of the chunk), 1, 2, ..., each with the pieces of its word-bound blank; the variables,
each with the pieces of the word-bound blanks that came with its value; the number of words of the chunk. -/
structure Ctx where
  words : List (IWord × List (List Atom))
  vars : Text → Text
  pieces : Text → List (List Atom)
  count : Nat

/-- The parts that bring the word-bound blank with them. -/
def lemmaPart (part : Text) : Prop := part = t!"lem" ∨ part = t!"lemh" ∨ part = t!"whole"

instance (part : Text) : Decidable (lemmaPart part) := by unfold lemmaPart; infer_instance

mutual
/-- `Val env c e t ps qs`: the expression `e` (without blanks and lexical units) is the text `t`; `ps` are the pieces of the words whose lemma it has and of the variables it has,
in order, and `qs` are those of the words only. -/
inductive Val (env : TEnv) (c : Ctx) : Expr → Text → List (List Atom) → List (List Atom) → Prop
  | lit {v : Text} : Val env c (.simple (.lit v)) v [] []
  | tag {v : Text} : Val env c (.litTag v) (tagsText v) [] []
  | var {n : Text} : Val env c (.simple (.var n)) (c.vars n) (c.pieces n) []
  | clip {k : Nat} {w : IWord} {ps : List (List Atom)} {sd : Side} {part lt : Text} {q : Bool} : c.words[k]? = some (w, ps) →
      Val env c (.simple (.clip (k : Int) sd part q lt)) (w.chunkPart (env.attr part)) (if lemmaPart part then ps else []) (if lemmaPart part then ps else [])
  | outside {p : Int} {sd : Side} {part lt : Text} {q : Bool} : p < 0 ∨ (c.words.length : Int) ≤ p → Val env c (.simple (.clip p sd part q lt)) [] [] []
  | caseOf {k : Nat} {w : IWord} {ps : List (List Atom)} {sd : Side} {part : Text} : c.words[k]? = some (w, ps) →
      Val env c (.caseOf (k : Int) sd part) (env.getcase (w.chunkPart (env.attr part))) [] []
  | getCaseFrom {k : Nat} {w : IWord} {ps : List (List Atom)} {e : Simple} {t : Text} {qs rs : List (List Atom)} : c.words[k]? = some (w, ps) → Val env c (.simple e) t qs rs →
      Val env c (.getCaseFrom (k : Int) e) (env.baseCopycase (w.chunkPart (env.attr t!"lem")) t) qs rs
  | luCount : Val env c .luCount (Nat.repr c.count).toList [] []
  | concat {es : List Expr} {t : Text} {ps qs : List (List Atom)} : Vals env c es t ps qs → Val env c (.concat es) t ps qs
/-- One after the other. -/
inductive Vals (env : TEnv) (c : Ctx) : List Expr → Text → List (List Atom) → List (List Atom) → Prop
  | nil : Vals env c [] [] [] []
  | cons {e : Expr} {es : List Expr} {t u : Text} {ps qs ps' qs' : List (List Atom)} : Val env c e t ps qs → Vals env c es u ps' qs' →
      Vals env c (e :: es) (t ++ u) (ps ++ ps') (qs ++ qs')
end

/-- The units of a multiword. -/
inductive Units (env : TEnv) (c : Ctx) : List (List Expr) → List Text → List (List Atom) → Prop
  | nil : Units env c [] [] []
  | cons {l : List Expr} {ls : List (List Expr)} {t : Text} {ts : List Text} {ps qs ps' : List (List Atom)} : Vals env c l t ps qs → Units env c ls ts ps' →
      Units env c (l :: ls) (t :: ts) (ps ++ ps')

/-- The units that are not empty, with `+` between them, but not before one that begins with `#`. -/
def joinUnits (ts : List Text) : Text :=
  match ts.filter (· ≠ []) with
  | [] => []
  | t :: ts => t ++ ts.flatMap fun u => if u.head? = some '#' then u else '+' :: u

/-- The pieces of the word-bound blank of a lexical unit made of expressions that bring the pieces `ps`: if the rule has several words, those; if it has one word, those of that
word. -/
def Ctx.blank (c : Ctx) (ps : List (List Atom)) : List (List Atom) :=
  match c.words with
  | [_, (_, qs)] => qs
  | _ :: _ :: _ => ps
  | _ => []

/-- The text of a lexical unit: an empty one is not written. -/
def Ctx.unit (c : Ctx) (t : Text) (ps : List (List Atom)) : Text := if t = [] then [] else wbText (c.blank ps) ++ '^' :: t ++ ['$']

/-- What `<out>` writes. `<b/>` is the next blank of the chunk, or a space when there is none left. -/
inductive Writes (env : TEnv) (c : Ctx) : List Expr → List Text → Text → List Text → Prop
  | nil {bs : List Text} : Writes env c [] bs [] bs
  | blank {es : List Expr} {b t : Text} {bs bs' : List Text} : Writes env c es bs t bs' → Writes env c (.blank :: es) (b :: bs) (b ++ t) bs'
  | space {es : List Expr} {t : Text} {bs' : List Text} : Writes env c es [] t bs' → Writes env c (.blank :: es) [] (' ' :: t) bs'
  | val {e : Expr} {es : List Expr} {t u : Text} {bs bs' : List Text} {ps qs : List (List Atom)} : Val env c e t ps qs → Writes env c es bs u bs' → Writes env c (e :: es) bs (t ++ u) bs'
  | lu {l es : List Expr} {t u : Text} {bs bs' : List Text} {ps qs : List (List Atom)} : Vals env c l t ps qs → Writes env c es bs u bs' →
      Writes env c (.lu l :: es) bs (c.unit t ps ++ u) bs'
  | mlu {ls : List (List Expr)} {es : List Expr} {ts : List Text} {u : Text} {bs bs' : List Text} {ps : List (List Atom)} : Units env c ls ts ps → Writes env c es bs u bs' →
      Writes env c (.mlu ls :: es) bs (c.unit (joinUnits ts) ps ++ u) bs'

/-! ## The state of the interpreter -/

/-- `Sees s c`: the state is that of a rule or macro that sees `c`, outside `<lu>` and `<let>`. -/
structure Sees (s : PSt) (c : Ctx) : Prop where
  len : s.word.length = c.words.length
  words : ∀ (k : Nat) (w : IWord) (ps : List (List Atom)), c.words[k]? = some (w, ps) →
    (∃ i, s.word[k]? = some (some i) ∧ s.heap[i]? = some w) ∧ w.wb = wbText ps ∧ PiecesOk ps
  vars : s.vars = c.vars
  pieces : ∀ n, s.varWb n = wbText (c.pieces n) ∧ PiecesOk (c.pieces n)
  count : s.count = c.count
  pending : ∃ ps, s.outWb = wbText ps ∧ PiecesOk ps
  inLu : s.inLu = false
  inLetVar : s.inLetVar = false

/-- The part of `Sees` that does not change while an expression is evaluated. -/
structure View (s : PSt) (c : Ctx) : Prop where
  len : s.word.length = c.words.length
  words : ∀ (k : Nat) (w : IWord) (ps : List (List Atom)), c.words[k]? = some (w, ps) →
    (∃ i, s.word[k]? = some (some i) ∧ s.heap[i]? = some w) ∧ w.wb = wbText ps ∧ PiecesOk ps
  vars : s.vars = c.vars
  count : s.count = c.count

theorem Sees.view {s : PSt} {c : Ctx} (h : Sees s c) : View s c := ⟨h.len, h.words, h.vars, h.count⟩

theorem View.at {s : PSt} {c : Ctx} (h : View s c) {k : Nat} {w : IWord} {ps : List (List Atom)} (hk : c.words[k]? = some (w, ps)) :
    ∃ i, s.wordAt (k : Int) = .ok (some (i, w)) := by
  have hlt : k < c.words.length := (List.getElem?_eq_some_iff.1 hk).1
  have hl := h.len
  obtain ⟨⟨i, h1, h2⟩, _⟩ := h.words k w ps hk
  refine ⟨i, ?_⟩
  unfold PSt.wordAt PSt.lword
  rw [if_neg (by omega), if_neg (by omega)]
  simp [h1, h2]

theorem View.outside {s : PSt} {c : Ctx} (h : View s c) (h0 : c.words ≠ []) {p : Int} (hp : p < 0 ∨ (c.words.length : Int) ≤ p) : s.wordAt p = .ok none := by
  have hl := h.len
  have : 0 < c.words.length := List.length_pos_iff.2 h0
  unfold PSt.wordAt PSt.lword
  by_cases h1 : p > ((s.word.length - 1 : Nat) : Int)
  · rw [if_pos h1]
  · rw [if_neg h1, if_pos (by omega)]

/-- `s` with other word-bound blanks collected, the flags and all else being the same. -/
def With (s : PSt) (o : Text) (v : Text → Text) : PSt := { s with outWb := o, varWb := v }

/-- What is known of the word-bound blanks during an expression: `acc` is what has been collected for a lexical unit, `pl` for the variable in `<let>`. -/
structure Track (c : Ctx) (s : PSt) (acc pl : List (List Atom)) : Prop where
  out : s.outWb = wbText acc
  okOut : PiecesOk acc
  var : s.inLetVar = true → s.varWb s.varVal = wbText pl ∧ PiecesOk pl
  vars : ∀ n, (s.inLetVar = true → n ≠ s.varVal) → s.varWb n = wbText (c.pieces n) ∧ PiecesOk (c.pieces n)
  one : s.inLu = true → s.inLetVar = false

theorem upd_same (f : Text → Text) (n : Text) (v : Text) (h : f n = v) : upd f n v = f := by
  funext m
  simp only [upd]
  split
  · rename_i hm; rw [hm, h]
  · rfl

/-- The result of an expression with the pieces `ps`, `qs`. -/
structure Result (s s' : PSt) (acc pl ps qs : List (List Atom)) (acc' : List (List Atom)) : Prop where
  same : s' = With s (wbText acc') (if s.inLetVar then upd s.varWb s.varVal (wbText (pl ++ qs)) else s.varWb)
  lu : s.inLu = true → acc' = acc ++ ps
  ok : PiecesOk acc'

theorem View.of_with {s : PSt} {c : Ctx} (h : View s c) (o : Text) (v : Text → Text) : View (With s o v) c := ⟨h.len, h.words, h.vars, h.count⟩

theorem lword_with (s : PSt) (o : Text) (v : Text → Text) : (With s o v).lword = s.lword := rfl

theorem Result.none {c : Ctx} {s : PSt} {acc pl : List (List Atom)} (h : Track c s acc pl) : Result s s acc pl [] [] acc := by
  refine ⟨?_, fun _ => by simp, h.okOut⟩
  by_cases hv : s.inLetVar = true
  · have := (h.var hv).1
    simp only [hv, if_true, List.append_nil]
    rw [upd_same _ _ _ this, ← h.out]
    rfl
  · simp only [if_neg hv, ← h.out]; rfl

variable {env : TEnv}

theorem gettingLemma_iff (part : Text) : gettingLemma part = true ↔ lemmaPart part := by
  simp [gettingLemma, lemmaPart]

/-- Pieces count only if the rule has several words. -/
def Ctx.eff (c : Ctx) (ps : List (List Atom)) : List (List Atom) := if 2 < c.words.length then ps else []

theorem Ctx.eff_append (c : Ctx) (ps qs : List (List Atom)) : c.eff (ps ++ qs) = c.eff ps ++ c.eff qs := by
  unfold Ctx.eff; split <;> rfl

theorem Ctx.eff_nil (c : Ctx) : c.eff [] = [] := by unfold Ctx.eff; split <;> rfl

theorem simple_few {c : Ctx} (h0 : c.words ≠ []) (h1 : ¬ 2 < c.words.length) {s : PSt} (hv : View s c) {e : Simple} {t : Text} {ps qs : List (List Atom)}
    (h : Val env c (.simple e) t ps qs) : evalSimple env e s = .ok (t, s) := by
  have hl : ¬ s.lword > 1 := by unfold PSt.lword; rw [hv.len]; omega
  generalize hq : Expr.simple e = q at h
  cases h with
  | lit => cases hq; rfl
  | var => cases hq; simp only [evalSimple, if_neg hl, hv.vars]
  | clip hk =>
    cases hq
    obtain ⟨i, hi⟩ := hv.at hk
    simp only [evalSimple, hi, Outcome.bind, addWblank, hl, and_false, if_false, Outcome.map]
  | outside hp =>
    cases hq
    simp only [evalSimple, hv.outside h0 hp, Outcome.bind]
  | tag | caseOf _ | getCaseFrom _ _ | concat _ | luCount => cases hq

theorem simple_many {c : Ctx} (h0 : 2 < c.words.length) {s : PSt} (hv : View s c) {acc pl : List (List Atom)} (ht : Track c s acc pl) {e : Simple} {t : Text} {ps qs : List (List Atom)}
    (h : Val env c (.simple e) t ps qs) : ∃ s' acc', evalSimple env e s = .ok (t, s') ∧ Result s s' acc pl ps qs acc' := by
  have hl : s.lword > 1 := by unfold PSt.lword; rw [hv.len]; omega
  generalize hq : Expr.simple e = q at h
  cases h with
  | lit => cases hq; exact ⟨s, acc, rfl, Result.none ht⟩
  | @var n =>
    cases hq
    have : ∃ rs, s.varWb n = wbText rs ∧ PiecesOk rs ∧ (s.inLetVar = false → rs = c.pieces n) := by
      by_cases hx : s.inLetVar = true ∧ n = s.varVal
      · obtain ⟨h1, h2⟩ := ht.var hx.1
        rw [← hx.2] at h1
        exact ⟨pl, h1, h2, fun h => by rw [hx.1] at h; cases h⟩
      · have h1 := ht.vars n (fun h => fun hn => hx ⟨h, hn⟩)
        exact ⟨_, h1.1, h1.2, fun _ => rfl⟩
    obtain ⟨rs, h1, h2, h3⟩ := this
    refine ⟨{ s with outWb := wbText (acc ++ rs) }, acc ++ rs, ?_, ?_, ?_, ht.okOut.append h2⟩
    · simp only [evalSimple, if_pos hl, ht.out, h1, combine_wbText _ _ ht.okOut, Outcome.map, hv.vars]
    · by_cases hx : s.inLetVar = true
      · simp only [if_pos hx, List.append_nil]
        rw [upd_same _ _ _ (ht.var hx).1]; rfl
      · simp only [if_neg hx]; rfl
    · intro hx
      rw [h3 (ht.one hx)]
  | @clip k w ps sd part lt q hk =>
    cases hq
    obtain ⟨i, hi⟩ := hv.at hk
    obtain ⟨_, hwb, hok⟩ := hv.words k w ps hk
    by_cases hp : lemmaPart part
    · have hg : gettingLemma part = true := (gettingLemma_iff part).2 hp
      simp only [if_pos hp]
      by_cases hx : s.inLu = true
      · refine ⟨{ s with outWb := wbText (acc ++ ps) }, acc ++ ps, ?_, ?_, fun _ => rfl, ht.okOut.append hok⟩
        · simp only [evalSimple, hi, Outcome.bind, addWblank, hg, hl, and_self, if_true, hx, ht.out, hwb, combine_wbText _ _ ht.okOut, Outcome.map]
        · simp only [if_neg (show ¬ s.inLetVar = true by rw [ht.one hx]; decide)]; rfl
      · by_cases hy : s.inLetVar = true
        · obtain ⟨h1, h2⟩ := ht.var hy
          refine ⟨{ s with varWb := upd s.varWb s.varVal (wbText (pl ++ ps)) }, acc, ?_, ?_, fun h => absurd h hx, ht.okOut⟩
          · simp only [evalSimple, hi, Outcome.bind, addWblank, hg, hl, and_self, if_true, if_neg hx, hy, h1, hwb, combine_wbText _ _ h2, Outcome.map]
          · simp only [if_pos hy, ← ht.out]; rfl
        · refine ⟨s, acc, ?_, ?_, fun h => absurd h hx, ht.okOut⟩
          · simp only [evalSimple, hi, Outcome.bind, addWblank, hg, hl, and_self, if_true, if_neg hx, if_neg hy, Outcome.map]
          · simp only [if_neg hy, ← ht.out]; rfl
    · have hg : gettingLemma part = false := by rw [← Bool.not_eq_true, gettingLemma_iff]; exact hp
      simp only [if_neg hp]
      refine ⟨s, acc, ?_, Result.none ht⟩
      simp [evalSimple, hi, Outcome.bind, addWblank, hg, Outcome.map]
  | outside hp =>
    cases hq
    refine ⟨s, acc, ?_, Result.none ht⟩
    simp only [evalSimple, hv.outside (by intro h; rw [h] at h0; simp at h0) hp, Outcome.bind]
  | tag | caseOf _ | getCaseFrom _ _ | concat _ | luCount => cases hq

theorem simple_val {c : Ctx} (h0 : c.words ≠ []) {s : PSt} (hv : View s c) {acc pl : List (List Atom)} (ht : Track c s acc pl) {e : Simple} {t : Text} {ps qs : List (List Atom)}
    (h : Val env c (.simple e) t ps qs) : ∃ s' acc', evalSimple env e s = .ok (t, s') ∧ Result s s' acc pl (c.eff ps) (c.eff qs) acc' := by
  by_cases h1 : 2 < c.words.length
  · simp only [Ctx.eff, if_pos h1]; exact simple_many h1 hv ht h
  · simp only [Ctx.eff, if_neg h1]; exact ⟨s, acc, simple_few h0 h1 hv h, Result.none ht⟩

theorem Track.next {c : Ctx} {s s' : PSt} {acc pl ps qs acc' : List (List Atom)} (ht : Track c s acc pl) (hq : PiecesOk qs) (h : Result s s' acc pl ps qs acc') :
    Track c s' acc' (pl ++ qs) := by
  obtain ⟨rfl, hlu, hok⟩ := h
  refine ⟨rfl, hok, ?_, ?_, ht.one⟩
  · intro hx
    have hx' : s.inLetVar = true := hx
    refine ⟨?_, (ht.var hx').2.append hq⟩
    simp only [With, if_pos hx', upd, if_true]
  · intro n hn
    have hn' : s.inLetVar = true → n ≠ s.varVal := hn
    have := ht.vars n hn'
    refine ⟨?_, this.2⟩
    simp only [With]
    split
    · rename_i hx; simp only [upd, if_neg (hn' hx)]; exact this.1
    · exact this.1

theorem Result.trans {s s1 s2 : PSt} {acc pl ps qs acc1 ps' qs' acc2 : List (List Atom)} (h : Result s s1 acc pl ps qs acc1) (h' : Result s1 s2 acc1 (pl ++ qs) ps' qs' acc2) :
    Result s s2 acc pl (ps ++ ps') (qs ++ qs') acc2 := by
  obtain ⟨rfl, hlu, hok⟩ := h
  obtain ⟨rfl, hlu', hok'⟩ := h'
  refine ⟨?_, fun hx => ?_, hok'⟩
  · simp only [With]
    split
    · rename_i hx
      have : upd (upd s.varWb s.varVal (wbText (pl ++ qs))) s.varVal (wbText (pl ++ qs ++ qs')) = upd s.varWb s.varVal (wbText (pl ++ (qs ++ qs'))) := by
        funext m; simp only [upd]; split <;> simp
      rw [this]
    · rfl
  · have := hlu' hx
    rw [this, hlu hx, List.append_assoc]

theorem simple_ok {c : Ctx} (hw : ∀ (k : Nat) (w : IWord) (ps : List (List Atom)), c.words[k]? = some (w, ps) → PiecesOk ps) {e : Simple} {t : Text} {ps qs : List (List Atom)}
    (h : Val env c (.simple e) t ps qs) : PiecesOk qs := by
  cases h with
  | clip hk => split <;> [exact hw _ _ _ hk; (intro p hp; cases hp)]
  | lit | var | outside => intro p hp; cases hp

mutual
/-- The pieces of words are fine. -/
theorem val_ok {c : Ctx} (hw : ∀ (k : Nat) (w : IWord) (ps : List (List Atom)), c.words[k]? = some (w, ps) → PiecesOk ps) : (e : Expr) → {t : Text} → {ps qs : List (List Atom)} →
    Val env c e t ps qs → PiecesOk qs
  | .simple e, _, _, _, h => simple_ok hw h
  | .litTag v, _, _, _, h => by cases h; intro p hp; cases hp
  | .blank, _, _, _, h => by cases h
  | .getCaseFrom p e, _, _, _, h => by
    cases h with
    | getCaseFrom hk hv => exact simple_ok hw hv
  | .luCount, _, _, _, h => by cases h; intro p hp; cases hp
  | .caseOf p sd part, _, _, _, h => by cases h; intro p hp; cases hp
  | .concat es, _, _, _, h => by
    cases h with
    | concat h => exact vals_ok hw es h
  | .lu _, _, _, _, h => by cases h
  | .mlu _, _, _, _, h => by cases h
  | .chunk _ _ _ es, _, _, _, h => by cases h
  | .tags _, _, _, _, h => by cases h
  | .unknown, _, _, _, h => by cases h
theorem vals_ok {c : Ctx} (hw : ∀ (k : Nat) (w : IWord) (ps : List (List Atom)), c.words[k]? = some (w, ps) → PiecesOk ps) : (es : List Expr) → {t : Text} → {ps qs : List (List Atom)} →
    Vals env c es t ps qs → PiecesOk qs
  | [], _, _, _, h => by cases h; intro p hp; cases hp
  | e :: es, _, _, _, h => by
    cases h with
    | cons h1 h2 => exact (val_ok hw e h1).append (vals_ok hw es h2)
end

theorem eff_ok {c : Ctx} {ps : List (List Atom)} (h : PiecesOk ps) : PiecesOk (c.eff ps) := by
  unfold Ctx.eff; split
  · exact h
  · intro p hp; cases hp

mutual
theorem expr_val {c : Ctx} (h0 : c.words ≠ []) : (e : Expr) → {s : PSt} → {acc pl : List (List Atom)} → {t : Text} → {ps qs : List (List Atom)} → View s c → Track c s acc pl →
    Val env c e t ps qs → ∃ s' acc', evalExpr env e s = .ok (t, s') ∧ Result s s' acc pl (c.eff ps) (c.eff qs) acc'
  | .simple e, _, _, _, _, _, _, hv, ht, h => by simp only [evalExpr]; exact simple_val h0 hv ht h
  | .litTag v, s, acc, _, _, _, _, _, ht, h => by cases h; rw [c.eff_nil]; exact ⟨s, acc, rfl, Result.none ht⟩
  | .blank, _, _, _, _, _, _, _, _, h => by cases h
  | .getCaseFrom p e, s, acc, pl, _, _, _, hv, ht, h => by
    cases h with
    | getCaseFrom hk hx =>
      obtain ⟨i, hi⟩ := hv.at hk
      obtain ⟨s', acc', h1, h2⟩ := simple_val h0 hv ht hx
      exact ⟨s', acc', by simp only [evalExpr, hi, Outcome.bind, h1, Outcome.map], h2⟩
  | .luCount, s, acc, _, _, _, _, hv, ht, h => by
    cases h
    rw [c.eff_nil]
    exact ⟨s, acc, by simp only [evalExpr, hv.count], Result.none ht⟩
  | .caseOf p sd part, s, acc, _, _, _, _, hv, ht, h => by
    cases h with
    | caseOf hk =>
      obtain ⟨i, hi⟩ := hv.at hk
      rw [c.eff_nil]
      exact ⟨s, acc, by simp only [evalExpr, hi, Outcome.bind], Result.none ht⟩
  | .concat es, _, _, _, _, _, _, hv, ht, h => by
    cases h with
    | concat h => simp only [evalExpr]; exact list_val h0 es hv ht h
  | .lu _, _, _, _, _, _, _, _, _, h => by cases h
  | .mlu _, _, _, _, _, _, _, _, _, h => by cases h
  | .chunk _ _ _ es, _, _, _, _, _, _, _, _, h => by cases h
  | .tags _, _, _, _, _, _, _, _, _, h => by cases h
  | .unknown, _, _, _, _, _, _, _, _, h => by cases h
theorem list_val {c : Ctx} (h0 : c.words ≠ []) : (es : List Expr) → {s : PSt} → {acc pl : List (List Atom)} → {t : Text} → {ps qs : List (List Atom)} → View s c → Track c s acc pl →
    Vals env c es t ps qs → ∃ s' acc', evalList env es s = .ok (t, s') ∧ Result s s' acc pl (c.eff ps) (c.eff qs) acc'
  | [], s, acc, _, _, _, _, _, ht, h => by cases h; rw [c.eff_nil]; exact ⟨s, acc, rfl, Result.none ht⟩
  | e :: es, s, acc, pl, _, _, _, hv, ht, h => by
    cases h with
    | cons h1 h2 =>
      obtain ⟨s1, acc1, e1, r1⟩ := expr_val h0 e hv ht h1
      have hok := eff_ok (c := c) (val_ok (fun k w ps hk => (hv.words k w ps hk).2.2) e h1)
      have hv1 : View s1 c := by rw [r1.same]; exact hv.of_with _ _
      obtain ⟨s2, acc2, e2, r2⟩ := list_val h0 es hv1 (ht.next hok r1) h2
      refine ⟨s2, acc2, by simp only [evalList, e1, Outcome.bind, e2, Outcome.map], ?_⟩
      rw [c.eff_append, c.eff_append]
      exact r1.trans r2
end

theorem Sees.track {s : PSt} {c : Ctx} (h : Sees s c) : ∃ acc, Track c s acc [] := by
  obtain ⟨ps, h1, h2⟩ := h.pending
  exact ⟨ps, h1, h2, fun hx => (by rw [h.inLetVar] at hx; exact absurd hx (by decide)), fun n _ => h.pieces n, fun _ => h.inLetVar⟩

theorem Sees.of_result {s s' : PSt} {c : Ctx} {acc pl ps qs acc' : List (List Atom)} (h : Sees s c) (r : Result s s' acc pl ps qs acc') :
    Sees s' c ∧ s' = { s with outWb := s'.outWb } := by
  obtain ⟨rfl, _, hok⟩ := r
  have e : ∀ f : Text → Text, (if s.inLetVar then f else s.varWb) = s.varWb := by intro f; simp [h.inLetVar]
  refine ⟨⟨h.len, h.words, h.vars, ?_, h.count, ⟨_, rfl, hok⟩, h.inLu, h.inLetVar⟩, ?_⟩
  · intro n; simp only [With, e]; exact h.pieces n
  · simp only [With, e]

/-- **C79, expressions.** `<clip>`, `<lit>`, `<var>`, `<concat>`, `<lu-count>`, ... have the value they should have, and change nothing (but for the word-bound blanks that are kept for
a lexical unit and that every lexical unit begins anew). -/
theorem C79_value {s : PSt} {c : Ctx} (hs : Sees s c) (h0 : c.words ≠ []) {e : Expr} {t : Text} {ps qs : List (List Atom)} (h : Val env c e t ps qs) :
    ∃ o, evalExpr env e s = .ok (t, { s with outWb := o }) ∧ Sees { s with outWb := o } c := by
  obtain ⟨acc, ht⟩ := hs.track
  obtain ⟨s', acc', h1, h2⟩ := expr_val h0 e hs.view ht h
  obtain ⟨h3, h4⟩ := hs.of_result h2
  exact ⟨s'.outWb, by rw [h1, ← h4], by rw [← h4]; exact h3⟩

/-! ## Lexical units -/

theorem Sees.lu {s : PSt} {c : Ctx} (h : Sees s c) : Track c { s with inLu := true, outWb := [] } [] [] :=
  ⟨rfl, fun p hp => (by cases hp), fun hx => absurd ((show s.inLetVar = true from hx).symm.trans h.inLetVar) (by decide), fun n _ => h.pieces n, fun _ => h.inLetVar⟩

theorem finish {s s' : PSt} {c : Ctx} (hs : Sees s c) (h0 : c.words ≠ []) {ps qs acc' : List (List Atom)} {t : Text}
    (r : Result { s with inLu := true, outWb := [] } s' [] [] (c.eff ps) qs acc') :
    ∃ o, finishLu t { s' with inLu := false } = .ok (c.unit t ps, { s with outWb := o }) ∧ Sees { s with outWb := o } c := by
  obtain ⟨rfl, hlu, hok⟩ := r
  have hacc : acc' = c.eff ps := by simpa using hlu rfl
  subst hacc
  have e : ∀ f : Text → Text, (if s.inLetVar then f else s.varWb) = s.varWb := by intro f; simp [hs.inLetVar]
  have hst : ∀ o, ({ With { s with inLu := true, outWb := [] } o (if s.inLetVar then upd s.varWb s.varVal (wbText ([] ++ qs)) else s.varWb) with inLu := false } : PSt) =
      { s with outWb := o } := by
    intro o; simp only [With, e]; rw [← hs.inLu]
  have hsees : ∀ qs, PiecesOk qs → Sees { s with outWb := wbText qs } c := fun qs hq =>
    ⟨hs.len, hs.words, hs.vars, hs.pieces, hs.count, ⟨qs, rfl, hq⟩, hs.inLu, hs.inLetVar⟩
  rw [show ({ s with inLu := true, outWb := [] } : PSt).inLetVar = s.inLetVar from rfl, show ({ s with inLu := true, outWb := [] } : PSt).varWb = s.varWb from rfl,
    show ({ s with inLu := true, outWb := [] } : PSt).varVal = s.varVal from rfl, hst]
  have hlen := hs.len
  unfold finishLu
  by_cases h1 : c.words.length = 2
  · obtain ⟨x, y, w, qs', hw⟩ : ∃ x y w qs', c.words = [x, y] ∧ y = (w, qs') := by
      match hc : c.words, h1 with
      | [x, (w, q)], _ => exact ⟨x, (w, q), w, q, rfl, rfl⟩
    obtain ⟨hw, rfl⟩ := hw
    have hl : ({ s with outWb := wbText (c.eff ps) } : PSt).lword = 1 := by unfold PSt.lword; simp only; omega
    obtain ⟨⟨i, hi1, hi2⟩, hwb, hok'⟩ := hs.words 1 w qs' (by rw [hw]; rfl)
    rw [if_pos hl]
    simp only [hi1, hi2]
    refine ⟨w.wb, ?_, by rw [hwb]; exact hsees _ hok'⟩
    simp only [luText, Ctx.unit, Ctx.blank, hw, hwb]
  · have hl : ¬ ({ s with outWb := wbText (c.eff ps) } : PSt).lword = 1 := by
      unfold PSt.lword; simp only; have := List.length_pos_iff.2 h0; omega
    rw [if_neg hl]
    refine ⟨wbText (c.eff ps), ?_, hsees _ hok⟩
    have : c.blank ps = c.eff ps := by
      unfold Ctx.blank Ctx.eff
      split
      · rename_i hw; rw [hw] at h1; simp at h1
      · rename_i hn hw; rw [hw]; simp only [List.length_cons]
        rename_i rest
        cases rest with
        | nil => exact (hn _ _ rfl rfl).elim
        | cons a b => rw [if_pos (by simp)]
      · rename_i h2 h3
        rw [if_neg]
        intro h4
        match hc : c.words, h4 with
        | x :: y :: z, _ => exact h3 _ _ _ hc
    simp only [luText, Ctx.unit, this]

/-- **C79, lexical units.** `<lu>` writes its text between `^` and `$`, after the word-bound blank it should have: in a rule with several words, the pieces of the words whose lemmas
it has and of the variables it has, in this order and no others; in a rule with one word, the blank of that word. -/
theorem C79_lu {s : PSt} {c : Ctx} (hs : Sees s c) (h0 : c.words ≠ []) {l : List Expr} {t : Text} {ps qs : List (List Atom)} (h : Vals env c l t ps qs) :
    ∃ o, evalExpr env (.lu l) s = .ok (c.unit t ps, { s with outWb := o }) ∧ Sees { s with outWb := o } c := by
  obtain ⟨s', acc', h1, h2⟩ := list_val (s := { s with inLu := true, outWb := [] }) h0 l ⟨hs.len, hs.words, hs.vars, hs.count⟩ hs.lu h
  obtain ⟨o, h3, h4⟩ := finish (t := t) hs h0 h2
  exact ⟨o, by simp only [evalExpr, h1, Outcome.bind, h3], h4⟩

/-- What the loop of `<mlu>` writes. -/
def mluRest (ts : List Text) : Text := (ts.filter (· ≠ [])).flatMap fun u => if u.head? = some '#' then u else '+' :: u

theorem mlu_val {c : Ctx} (h0 : c.words ≠ []) {ls : List (List Expr)} {ts : List Text} {ps : List (List Atom)} (h : Units env c ls ts ps) :
    ∀ (first : Bool) {s : PSt} {acc : List (List Atom)}, View s c → Track c s acc [] → s.inLu = true →
      ∃ s', evalMlu env ls first s = .ok (if first then joinUnits ts else mluRest ts, s') ∧ Result s s' acc [] (c.eff ps) [] (acc ++ c.eff ps) := by
  induction h with
  | nil =>
    intro first s acc hv ht hl
    refine ⟨s, by cases first <;> rfl, ?_⟩
    rw [c.eff_nil]
    have := Result.none ht
    rwa [List.append_nil]
  | @cons l ls t ts ps qs ps' h1 h2 ih =>
    intro first s acc hv ht hl
    obtain ⟨s1, acc1, e1, r1⟩ := list_val h0 l hv ht h1
    have hx := ht.one hl
    have r1' : Result s s1 acc [] (c.eff ps) [] acc1 := ⟨by rw [r1.same, hx]; rfl, r1.lu, r1.ok⟩
    have hv1 : View s1 c := by rw [r1.same]; exact hv.of_with _ _
    have ht1 := ht.next (qs := []) (fun p hp => (by cases hp)) r1'
    obtain ⟨s2, e2, r2⟩ := ih (first && decide (t = [])) hv1 (by simpa using ht1) (by rw [r1.same]; exact hl)
    refine ⟨s2, ?_, ?_⟩
    · simp only [evalMlu, e1, Outcome.bind, e2, Outcome.map]
      by_cases ht0 : t = []
      · subst ht0
        cases first <;> simp [joinUnits, mluRest]
      · by_cases hh : t.head? = some '#'
        · cases first <;> simp [joinUnits, mluRest, ht0, hh]
        · cases first <;> simp [joinUnits, mluRest, ht0, hh]
    · have r := r1'.trans r2
      rw [c.eff_append]
      have e : acc1 = acc ++ c.eff ps := r1.lu hl
      rw [e] at r
      simpa using r

/-- **C79, multiwords.** `<mlu>` joins its units with `+` (but not before a `#`), leaving out the empty ones, and is otherwise as `<lu>`. -/
theorem C79_mlu {s : PSt} {c : Ctx} (hs : Sees s c) (h0 : c.words ≠ []) {ls : List (List Expr)} {ts : List Text} {ps : List (List Atom)} (h : Units env c ls ts ps) :
    ∃ o, evalExpr env (.mlu ls) s = .ok (c.unit (joinUnits ts) ps, { s with outWb := o }) ∧ Sees { s with outWb := o } c := by
  obtain ⟨s', h1, h2⟩ := mlu_val h0 h true (s := { s with inLu := true, outWb := [] }) ⟨hs.len, hs.words, hs.vars, hs.count⟩ hs.lu rfl
  obtain ⟨o, h3, h4⟩ := finish (t := joinUnits ts) hs h0 (by simpa using h2)
  exact ⟨o, by simp only [evalExpr, h1, Outcome.bind, if_true, h3], h4⟩

/-! ## Output -/

theorem outLoop_writes {c : Ctx} (h0 : c.words ≠ []) {es : List Expr} {bs bs' : List Text} {t : Text} (h : Writes env c es bs t bs') :
    ∀ s : PSt, Sees s c → s.blanks = bs → s.inOut = true →
      ∃ o, outLoop env es s = .ok { s with out := s.out ++ t, blanks := bs', outWb := o } ∧ Sees { s with out := s.out ++ t, blanks := bs', outWb := o } c := by
  have one : ∀ {e : Expr} {es : List Expr} {t u : Text} {bs bs' : List Text} (s : PSt),
      (∃ o, evalExpr env e s = .ok (t, { s with outWb := o }) ∧ Sees { s with outWb := o } c) → s.blanks = bs → s.inOut = true →
      (∀ s : PSt, Sees s c → s.blanks = bs → s.inOut = true →
        ∃ o, outLoop env es s = .ok { s with out := s.out ++ u, blanks := bs', outWb := o } ∧ Sees { s with out := s.out ++ u, blanks := bs', outWb := o } c) →
      ∃ o, outLoop env (e :: es) s = .ok { s with out := s.out ++ (t ++ u), blanks := bs', outWb := o } ∧ Sees { s with out := s.out ++ (t ++ u), blanks := bs', outWb := o } c := by
    rintro e es t u bs bs' s ⟨o, h1, h2⟩ hb ho ih
    obtain ⟨o', h3, h4⟩ := ih { s with outWb := o, out := s.out ++ t } ⟨h2.len, h2.words, h2.vars, h2.pieces, h2.count, h2.pending, h2.inLu, h2.inLetVar⟩ hb ho
    refine ⟨o', ?_, ?_⟩
    · simp only [outLoop, h1, Outcome.bind]; rw [h3]; simp
    · simpa using h4
  induction h with
  | nil =>
    intro s hs hb _
    exact ⟨s.outWb, by simp only [outLoop, List.append_nil, ← hb], by simp only [List.append_nil, ← hb]; exact hs⟩
  | @blank es b t bs bs' _ ih =>
    rintro s hs hb ho
    obtain ⟨o, h1, h2⟩ := ih { s with inOut := true, blanks := bs, out := s.out ++ b } ⟨hs.len, hs.words, hs.vars, hs.pieces, hs.count, hs.pending, hs.inLu, hs.inLetVar⟩ rfl rfl
    refine ⟨o, ?_, ?_⟩
    · simp only [outLoop, evalExpr, hb, ho, if_true, Outcome.bind]; rw [h1]; simp
    · simpa [ho] using h2
  | @space es t bs' _ ih =>
    rintro s hs hb ho
    obtain ⟨o, h1, h2⟩ := ih { s with blanks := [], out := s.out ++ [' '] } ⟨hs.len, hs.words, hs.vars, hs.pieces, hs.count, hs.pending, hs.inLu, hs.inLetVar⟩ rfl ho
    refine ⟨o, ?_, ?_⟩
    · simp only [outLoop, evalExpr, hb, Outcome.bind]; rw [h1]; simp
    · simpa using h2
  | val h1 _ ih => intro s hs hb ho; exact one s (C79_value hs h0 h1) hb ho ih
  | lu h1 _ ih => intro s hs hb ho; exact one s (C79_lu hs h0 h1) hb ho ih
  | mlu h1 _ ih => intro s hs hb ho; exact one s (C79_mlu hs h0 h1) hb ho ih

/-- **C79, `<out>`.** What `<out>` writes is what it should write, after what was written before; the blanks used are taken from the queue, and nothing else changes. -/
theorem C79_out {s : PSt} {c : Ctx} (hs : Sees s c) (h0 : c.words ≠ []) (ho : s.inOut = false) {es : List Expr} {t : Text} {bs' : List Text}
    (h : Writes env c es s.blanks t bs') :
    ∃ o, processOut env es s = .ok { s with out := s.out ++ t, blanks := bs', outWb := o } ∧ Sees { s with out := s.out ++ t, blanks := bs', outWb := o } c := by
  obtain ⟨o, h1, h2⟩ := outLoop_writes h0 h { s with inOut := true } ⟨hs.len, hs.words, hs.vars, hs.pieces, hs.count, hs.pending, hs.inLu, hs.inLetVar⟩ rfl rfl
  refine ⟨o, ?_, ⟨h2.len, h2.words, h2.vars, h2.pieces, h2.count, h2.pending, h2.inLu, h2.inLetVar⟩⟩
  unfold processOut
  rw [h1]
  simp only [Outcome.map, ho]

/-! ## Assignments -/

/-- **C79, `<let>` of a variable.** The variable has the value, and with it the word-bound blanks of the words whose lemmas were used (not, however, those that came with other
variables: `C79_var_to_var_violation`); nothing else changes. -/
theorem C79_let_var_partial {s : PSt} {c : Ctx} (hs : Sees s c) (h0 : c.words ≠ []) (n : Text) {e : Expr} {t : Text} {ps qs : List (List Atom)} (h : Val env c e t ps qs) :
    ∃ s', processLet env (.simple (.var n)) e s = .ok s' ∧
      Sees s' { c with vars := upd c.vars n t, pieces := fun m => if m = n then c.eff qs else c.pieces m } ∧
      s'.heap = s.heap ∧ s'.word = s.word ∧ s'.blanks = s.blanks ∧ s'.out = s.out ∧ s'.inOut = s.inOut := by
  obtain ⟨acc, h1, h2⟩ := hs.pending
  have ht : Track c { s with inLetVar := true, varVal := n, varWb := upd s.varWb n [] } acc [] := by
    refine ⟨h1, h2, fun _ => ⟨by simp [upd, wbText], fun p hp => (by cases hp)⟩, ?_, fun hx => absurd ((show s.inLu = true from hx).symm.trans hs.inLu) (by decide)⟩
    intro m hm
    have : m ≠ n := hm rfl
    simp only [upd, if_neg this]
    exact hs.pieces m
  have hv : View { s with inLetVar := true, varVal := n, varWb := upd s.varWb n [] } c := ⟨hs.len, hs.words, hs.vars, hs.count⟩
  obtain ⟨s', acc', e1, r⟩ := expr_val h0 e hv ht h
  have hq := eff_ok (c := c) (val_ok (fun k w ps hk => (hs.words k w ps hk).2.2) e h)
  obtain ⟨rfl, _, hok⟩ := r
  refine ⟨{ s with varVal := n, outWb := wbText acc', varWb := upd (upd s.varWb n []) n (wbText (c.eff qs)), vars := upd s.vars n t, inLetVar := false },
    by simp only [processLet, e1, Outcome.map]; rfl, ⟨hs.len, hs.words, ?_, ?_, hs.count, ⟨acc', rfl, hok⟩, hs.inLu, rfl⟩, rfl, rfl, rfl, rfl, rfl⟩
  · simp only [hs.vars]
  · intro m
    by_cases hm : m = n
    · simp only [upd, if_pos hm]; exact ⟨trivial, hq⟩
    · simp only [upd, if_neg hm]; exact hs.pieces m

/-- **C79, `<append>`.** The value is added at the end of the variable, and the word-bound blanks of the words whose lemmas were used to those of the variable. -/
theorem C79_append_partial {s : PSt} {c : Ctx} (hs : Sees s c) (h0 : c.words ≠ []) (n : Text) {e : Expr} {es : List Expr} {t : Text} {ps qs : List (List Atom)} (h : Val env c e t ps qs) :
    ∃ s', processAppend env n (e :: es) s = processAppend env n es s' ∧
      Sees s' { c with vars := upd c.vars n (c.vars n ++ t), pieces := fun m => if m = n then c.pieces n ++ c.eff qs else c.pieces m } ∧
      s'.heap = s.heap ∧ s'.word = s.word ∧ s'.blanks = s.blanks ∧ s'.out = s.out ∧ s'.inOut = s.inOut := by
  obtain ⟨acc, h1, h2⟩ := hs.pending
  have ht : Track c { s with inLetVar := true, varVal := n } acc (c.pieces n) :=
    ⟨h1, h2, fun _ => hs.pieces n, fun m _ => hs.pieces m, fun hx => absurd ((show s.inLu = true from hx).symm.trans hs.inLu) (by decide)⟩
  have hv : View { s with inLetVar := true, varVal := n } c := ⟨hs.len, hs.words, hs.vars, hs.count⟩
  obtain ⟨s', acc', e1, r⟩ := expr_val h0 e hv ht h
  have hq := eff_ok (c := c) (val_ok (fun k w ps hk => (hs.words k w ps hk).2.2) e h)
  obtain ⟨rfl, _, hok⟩ := r
  refine ⟨{ s with varVal := n, outWb := wbText acc', varWb := upd s.varWb n (wbText (c.pieces n ++ c.eff qs)), vars := upd s.vars n (s.vars n ++ t), inLetVar := false },
    by simp only [processAppend, e1, Outcome.bind]; rfl, ⟨hs.len, hs.words, ?_, ?_, hs.count, ⟨acc', rfl, hok⟩, hs.inLu, rfl⟩, rfl, rfl, rfl, rfl, rfl⟩
  · simp only [hs.vars]
  · intro m
    by_cases hm : m = n
    · simp only [upd, if_pos hm]; exact ⟨trivial, (hs.pieces n).2.append hq⟩
    · simp only [upd, if_neg hm]; exact hs.pieces m

theorem wordRaw_at {s : PSt} {k i : Nat} {w : IWord} (hi : s.word[k]? = some (some i)) (hw : s.heap[i]? = some w) : s.wordRaw (k : Int) = .ok (i, w) := by
  unfold PSt.wordRaw
  rw [if_neg (by omega)]
  simp [hi, hw]

/-- **C79, `<let>` of a part.** The part, if the word has it, is replaced; the word-bound blank of the word and all other words, the variables and what was written stay. -/
theorem C79_let_part {s : PSt} {c : Ctx} (hs : Sees s c) (h0 : c.words ≠ []) {k i : Nat} {w : IWord} (hi : s.word[k]? = some (some i)) (hw : s.heap[i]? = some w) (sd : Side)
    (part lt : Text) (q : Bool) {e : Expr} {v : Text} {ps qs : List (List Atom)} (h : Val env c e v ps qs) :
    ∃ s', processLet env (.simple (.clip (k : Int) sd part q lt)) e s = .ok s' ∧
      (∃ w', s'.heap[i]? = some w' ∧ w'.queue = w.queue ∧ w'.wb = w.wb ∧ ((env.attr part).find w.chunk = none → w'.chunk = w.chunk) ∧
        ∀ pre m post, (env.attr part).find w.chunk = some (pre.length, pre.length + m.length) → w.chunk = pre ++ m ++ post → w'.chunk = pre ++ v ++ post) ∧
      (∀ j, j ≠ i → s'.heap[j]? = s.heap[j]?) ∧ s'.word = s.word ∧ s'.vars = s.vars ∧ s'.varWb = s.varWb ∧ s'.blanks = s.blanks ∧ s'.out = s.out ∧ s'.count = s.count ∧
      s'.inOut = s.inOut := by
  have hlt : i < s.heap.length := (List.getElem?_eq_some_iff.1 hw).1
  obtain ⟨o, e1, _⟩ := C79_value (env := env) hs h0 h
  refine ⟨{ s with outWb := o, heap := s.heap.set i (w.setChunkPart (env.attr part) v) }, ?_, ⟨w.setChunkPart (env.attr part) v, by simp [hlt], ?_⟩, ?_, rfl, rfl, rfl, rfl, rfl, rfl, rfl⟩
  · simp only [processLet, wordRaw_at hi hw, Outcome.bind, e1, Outcome.map]
  · obtain ⟨h1, h2, h3, h4⟩ := Verif.Chunk.C18_set w (env.attr part) v
    exact ⟨h1, h2, h3, h4⟩
  · intro j hj; simp [Ne.symm hj]

/-- **C79, `<modify-case>`.** The part gets the case of the value; nothing at all changes when case is left to the dictionary. -/
theorem C79_modify_case {s : PSt} {c : Ctx} (hs : Sees s c) (h0 : c.words ≠ []) {k i : Nat} {w : IWord} (hi : s.word[k]? = some (some i)) (hw : s.heap[i]? = some w) (sd : Side)
    (part lt : Text) (q : Bool) {e : Expr} {v : Text} {ps qs : List (List Atom)} (h : Val env c e v ps qs) :
    ∃ o, processModifyCase env (.simple (.clip (k : Int) sd part q lt)) e s =
      .ok (if env.dictCase then s
        else { s with outWb := o, heap := s.heap.set i { w with chunk := ((env.attr part).replace w.chunk (env.copycase v (w.chunkPart (env.attr part)))).1 } }) := by
  obtain ⟨o, e1, _⟩ := C79_value (env := env) hs h0 h
  refine ⟨o, ?_⟩
  unfold processModifyCase
  by_cases hd : env.dictCase
  · rw [if_pos hd, if_pos hd]
  · rw [if_neg hd, if_neg hd]
    simp only [wordRaw_at hi hw, Outcome.bind, e1, Outcome.map, IWord.setChunkPart]

/-! ## Macros -/

theorem macroArgs_in {word : List (Option Nat)} (hall : ∀ k, k < word.length → ∃ i, word[k]? = some (some i)) : (ps : List Int) →
    (∀ p ∈ ps, 0 ≤ p ∧ p < word.length) → macroArgs word ps = .ok (ps.map fun p => (word[p.toNat]?).getD none, true)
  | [], _ => rfl
  | p :: ps, h => by
    obtain ⟨h1, h2⟩ := h p (by simp)
    obtain ⟨i, hi⟩ := hall p.toNat (by omega)
    simp only [macroArgs]
    rw [if_neg (by omega), hi]
    simp only [macroArgs_in hall ps (fun q hq => h q (by simp [hq])), Outcome.map, List.map_cons, hi, Option.getD_some]

theorem macroArgs_out {word : List (Option Nat)} (hall : ∀ k, k < word.length → ∃ i, word[k]? = some (some i)) (h1 : 1 < word.length) : (ps : List Int) →
    ∃ os b, macroArgs word ps = .ok (os, b) ∧ ((∃ p ∈ ps, p < 0 ∨ (word.length : Int) ≤ p) → b = false)
  | [] => ⟨[], true, rfl, fun ⟨p, hp, _⟩ => (by cases hp)⟩
  | p :: ps => by
    obtain ⟨os, b, e, hb⟩ := macroArgs_out hall h1 ps
    simp only [macroArgs]
    by_cases hp : p > ((word.length - 1 : Nat) : Int) ∨ p < 0
    · rw [if_pos hp]
      obtain ⟨i, hi⟩ := hall 1 h1
      simp only [hi, e, Outcome.map]
      exact ⟨_, _, rfl, fun _ => rfl⟩
    · rw [if_neg hp]
      obtain ⟨i, hi⟩ := hall p.toNat (by omega)
      simp only [hi, e, Outcome.map]
      refine ⟨_, _, rfl, ?_⟩
      rintro ⟨q, hq, hq'⟩
      rcases List.mem_cons.1 hq with rfl | hq
      · omega
      · exact hb ⟨q, hq, hq'⟩

theorem Sees.all {s : PSt} {c : Ctx} (hs : Sees s c) : ∀ k, k < s.word.length → ∃ i, s.word[k]? = some (some i) := by
  intro k hk
  rw [hs.len] at hk
  obtain ⟨⟨i, h1, _⟩, _⟩ := hs.words k _ _ (List.getElem?_eq_getElem hk)
  exact ⟨i, h1⟩

/-- **C79, macros.** In the body of a macro called with as many arguments as it declares, all of them words of the chunk, position 0 is the head of the chunk as before, and position
`k` the word given as `k`-th argument; afterwards the positions mean in the caller what they did before, and what the body did to words, variables, output and blanks stays. -/
theorem C79_macro (env : TEnv) (d : Nat) (n : Text) (args : List Int) (s : PSt) (c : Ctx) (hs : Sees s c) (hn : args.length = (env.macros n).1) (h0 : args ≠ [])
    (ha : ∀ p ∈ args, 0 ≤ p ∧ p < c.words.length) :
    ∃ s0 as, callMacro env (d + 1) n args s = (execMacroBody (virt env) (callMacro env d) (env.macros n).2 s0).map (fun s1 => { s1 with word := s.word }) ∧
      Sees s0 { c with words := as } ∧ as.length = args.length + 1 ∧ as[0]? = c.words[0]? ∧ (∀ (k : Nat) (p : Int), args[k]? = some p → as[k + 1]? = c.words[p.toNat]?) ∧
      s0.heap = s.heap ∧ s0.out = s.out ∧ s0.blanks = s.blanks ∧ s0.inOut = s.inOut := by
  have hpos : (env.macros n).1 ≠ 0 := by rw [← hn]; simpa using h0
  have hlen := hs.len
  obtain ⟨a, hargs⟩ := List.exists_mem_of_ne_nil _ h0
  have hlt := ha a hargs
  have hin := macroArgs_in hs.all args (fun p hp => by have := ha p hp; omega)
  obtain ⟨w0, ws, hw⟩ : ∃ w0 ws, s.word = w0 :: ws := by
    cases hw : s.word with
    | nil => rw [hw] at hlen; simp only [List.length_nil] at hlen; omega
    | cons w0 ws => exact ⟨w0, ws, rfl⟩
  have e : callMacro env (d + 1) n args s = (execMacroBody (virt env) (callMacro env d) (env.macros n).2
      { s with word := w0 :: args.map fun p => (s.word[p.toNat]?).getD none }).map (fun s1 => { s1 with word := s.word }) := by
    simp only [callMacro, if_neg hpos]
    rw [if_neg (by omega)]
    rw [hw] at hin ⊢
    simp only [hin, Outcome.bind, if_true]
    rw [show (env.macros n).1 - args.length = 0 by omega]
    simp
  let at' (p : Int) : IWord × List (List Atom) := (c.words[p.toNat]?).getD (⟨[], [], []⟩, [])
  have hat : ∀ p : Int, 0 ≤ p → p < c.words.length → c.words[p.toNat]? = some (at' p) := by
    intro p h1 h2
    have : p.toNat < c.words.length := by omega
    simp only [at', List.getElem?_eq_getElem this, Option.getD_some]
  refine ⟨_, at' 0 :: args.map at', e, ⟨by simp, ?_, hs.vars, hs.pieces, hs.count, hs.pending, hs.inLu, hs.inLetVar⟩, by simp, ?_, ?_, rfl, rfl, rfl, rfl⟩
  · intro k w ps hk
    cases k with
    | zero =>
      have h1 : c.words[0]? = some (w, ps) := by
        have := hat 0 (by omega) (by omega)
        simp only [List.getElem?_cons_zero, Option.some.injEq] at hk
        rw [← hk]; exact this
      obtain ⟨⟨i, h2, h3⟩, h4⟩ := hs.words 0 w ps h1
      refine ⟨⟨i, ?_, h3⟩, h4⟩
      rw [hw] at h2
      simpa using h2
    | succ k =>
      simp only [List.getElem?_cons_succ, List.getElem?_map, Option.map_eq_some_iff] at hk
      obtain ⟨p, hp, hk⟩ := hk
      have hp' := ha p (List.mem_of_getElem? hp)
      have h1 : c.words[p.toNat]? = some (w, ps) := by rw [hat p hp'.1 hp'.2, hk]
      obtain ⟨⟨i, h2, h3⟩, h4⟩ := hs.words _ w ps h1
      refine ⟨⟨i, ?_, h3⟩, h4⟩
      simp only [List.getElem?_cons_succ, List.getElem?_map, hp, Option.map_some, h2, Option.getD_some]
  · rw [List.getElem?_cons_zero]; exact (hat 0 (by omega) (by omega)).symm
  · intro k p hp
    have hp' := ha p (List.mem_of_getElem? hp)
    simp only [List.getElem?_cons_succ, List.getElem?_map, hp, Option.map_some, hat p hp'.1 hp'.2]

/-- **C79, macros.** A call with a position that is not a word of the (not empty) chunk does nothing. -/
theorem C79_macro_outside (env : TEnv) (d : Nat) (n : Text) (args : List Int) (s : PSt) (c : Ctx) (hs : Sees s c) (hn : args.length = (env.macros n).1) (h1 : 1 < c.words.length)
    (ha : ∃ p ∈ args, p < 0 ∨ (c.words.length : Int) ≤ p) : callMacro env (d + 1) n args s = .ok s := by
  have hlen := hs.len
  have hpos : (env.macros n).1 ≠ 0 := by
    obtain ⟨p, hp, _⟩ := ha
    rw [← hn]
    intro h
    rw [List.eq_nil_of_length_eq_zero h] at hp
    cases hp
  obtain ⟨os, b, e, hb⟩ := macroArgs_out hs.all (by omega) args
  rw [hb (by rw [hlen]; exact ha)] at e
  simp only [callMacro, if_neg hpos]
  rw [if_neg (by omega)]
  match hw : s.word with
  | [] => rw [hw] at hlen; simp only [List.length_nil] at hlen; omega
  | w0 :: ws =>
    rw [hw] at e
    simp only [e, Outcome.bind]
    simp

/-! ## The start of a rule -/

/-- **C79, the start of a rule.** The rule is run on the head of the chunk as word 0 and the words of the chunk as words 1, 2, ..., with the variables as they were; it sees what is
there, if all word-bound blanks are lists of pieces. -/
theorem C79_start (u : Verif.Chunk.Uni) (env : TEnv) (d : Nat) (rules : List (List Instr)) (r : Nat) (chunk : Text) (tw bs : List Text) (k : Nat) (v : PSt) {n : Int} {o : Text} {v' : PSt}
    (hv : v.inLu = false ∧ v.inLetVar = false) (pv : Text → List (List Atom)) (hpv : ∀ n, v.varWb n = wbText (pv n) ∧ PiecesOk (pv n)) (po : List (List Atom))
    (hpo : v.outWb = wbText po ∧ PiecesOk po) (h : applyRule u env d rules r (chunk :: tw) bs k v = .ok (n, o, v')) :
    ∃ s action s' ws bl z w0 hw, rules[r - 1]? = some action ∧ processRule env d action s = .ok (n, s') ∧ o = s'.out ∧ v'.vars = s'.vars ∧ s.out = [] ∧
      Verif.Chunk.splitWordsAndBlanks u chunk bs = .ok (ws, bl) ∧ Verif.Chunk.wordzero chunk = .ok z ∧ IWord.init z = .ok w0 ∧ ruleWords ws = .ok hw ∧ s.heap = w0 :: hw ∧
      ∀ pw : IWord → List (List Atom), (∀ w ∈ w0 :: hw, w.wb = wbText (pw w) ∧ PiecesOk (pw w)) →
        Sees s ⟨(w0 :: hw).map fun w => (w, pw w), v.vars, pv, ws.length⟩ := by
  simp only [applyRule] at h
  obtain ⟨⟨ws, bl⟩, h1, h⟩ := ok_bind_eq h
  obtain ⟨z, h2, h⟩ := ok_bind_eq h
  obtain ⟨w0, h3, h⟩ := ok_bind_eq h
  obtain ⟨hw, h4, h⟩ := ok_bind_eq h
  split at h
  · split at h
    · cases h
    · rename_i action ha
      obtain ⟨⟨m, s'⟩, h5, h⟩ := ok_map_eq h
      cases h
      refine ⟨_, action, s', ws, bl, z, w0, hw, ha, h5, rfl, rfl, rfl, h1, h2, h3, h4, rfl, ?_⟩
      intro pw hpw
      refine ⟨by simp, ?_, rfl, hpv, rfl, ⟨po, hpo⟩, hv.1, hv.2⟩
      intro k w ps hk
      simp only [List.getElem?_map, Option.map_eq_some_iff, Prod.mk.injEq] at hk
      obtain ⟨x, hx, rfl, rfl⟩ := hk
      refine ⟨⟨k, ?_, hx⟩, hpw x (List.mem_of_getElem? hx)⟩
      have hlt : k < hw.length + 1 := by simpa using (List.getElem?_eq_some_iff.1 hx).1
      simp [hlt]
  · cases h

end Verif.Postchunk
