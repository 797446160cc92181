import Verif.Whole.Local
import Verif.Whole.Mono
import Verif.Token.Props
/-!
# C74: apertium-transfer does what the rules say
-/
namespace Verif.Whole
open Verif.Transfer
open Verif.Stream
open Verif.Bil (BilStream text)
open Verif.Token (Part renderParts TrStream)
open Verif.Chunk (Piece)
open Verif.Pattern (FirstRule FitsRead Trans Minimal)

/-! ## The units -/

theorem FinePiece.wf {p : Piece} (h : FinePiece p) : Bil.PieceWf p := by
  cases p with
  | lit c =>
    simp only [FinePiece, Bil.PieceWf, List.mem_cons, List.not_mem_nil, or_false, not_or] at h ⊢
    exact ⟨h.1, h.2.1, h.2.2.1, h.2.2.2.1⟩
  | esc c => trivial
  | tag n =>
    intro c hc
    have := h c hc
    simp only [List.mem_cons, List.not_mem_nil, or_false, not_or] at this ⊢
    exact ⟨this.1, this.2.1, this.2.2.1⟩
  | ref n => exact h.elim

theorem pieceAtoms_fine {p : Piece} (h : FinePiece p) : ∀ a ∈ Bil.pieceAtoms p, a.wf ['[', '^', '$'] := by
  intro a ha
  cases p with
  | lit c =>
    simp only [Bil.pieceAtoms, List.mem_cons, List.not_mem_nil, or_false] at ha
    subst ha
    simp only [FinePiece, List.mem_cons, List.not_mem_nil, or_false, not_or] at h
    refine ⟨h.1, h.2.2.2.2.2.2, ?_⟩
    simp [h]
  | esc c =>
    simp only [Bil.pieceAtoms, List.mem_cons, List.not_mem_nil, or_false] at ha
    subst ha; exact h
  | tag n =>
    simp only [Bil.pieceAtoms, List.cons_append, List.mem_cons, List.mem_append, List.mem_map, List.not_mem_nil, or_false] at ha
    rcases ha with rfl | ⟨c, hc, rfl⟩ | rfl
    · decide
    · have := h c hc
      simp only [List.mem_cons, List.not_mem_nil, or_false, not_or] at this
      refine ⟨this.2.1, this.2.2.2.2.2, ?_⟩
      simp [this]
    · decide
  | ref n => exact h.elim

theorem textAtoms_fine {ps : List Piece} (h : ∀ p ∈ ps, FinePiece p) : ∀ a ∈ Bil.textAtoms ps, a.wf ['[', '^', '$'] := by
  intro a ha
  obtain ⟨p, hp, ha⟩ := List.mem_flatMap.1 ha
  exact pieceAtoms_fine (h p hp) a ha

variable {lower : Char → Char}

theorem bodyAtoms_fine {x : Bil.Unit} (h : FineUnit lower x) : ∀ a ∈ Bil.bodyAtoms x, a.wf ['[', '^', '$'] := by
  intro a ha
  rcases List.mem_append.1 ha with ha | ha
  · exact textAtoms_fine h.source a ha
  · obtain ⟨t, ht, ha⟩ := List.mem_flatMap.1 ha
    rcases List.mem_cons.1 ha with rfl | ha
    · decide
    · exact textAtoms_fine (h.targets t ht) a ha

theorem trWord_fine {x : Bil.Unit} (h : FineUnit lower x) : (Bil.trWord x).wf := by
  unfold Token.TrWord.wf Bil.trWord
  cases hb : x.wb with
  | none => exact fun a ha => bodyAtoms_fine h a ha
  | some b => exact ⟨fun a ha => Bil.wf_mono (by simp) ((h.wb b hb).1 a ha), fun a ha => Bil.wf_mono (by simp) (bodyAtoms_fine h a ha)⟩

theorem FineUnit.wf {x : Bil.Unit} (h : FineUnit lower x) : x.wf where
  wb b hb a ha := Bil.wf_mono (by simp) ((h.wb b hb).1 a ha)
  source p hp := (h.source p hp).wf
  targets t ht p hp := (h.targets t ht p hp).wf

theorem FineUnit.head {x : Bil.Unit} (h : FineUnit lower x) : (text x.target).head? ≠ some '[' := by
  have ht : ∀ p ∈ x.target, FinePiece p := by
    intro p hp
    unfold Bil.Unit.target at hp
    cases hts : x.targets with
    | nil => rw [hts] at hp; simp at hp
    | cons t ts => rw [hts] at hp; exact h.targets t (by simp [hts]) p (by simpa using hp)
  cases hx : x.target with
  | nil => simp [text]
  | cons p ps =>
    have := ht p (by simp [hx])
    cases p with
    | lit c => simp [FinePiece] at this; simp [text, Piece.render, this]
    | esc c => simp [text, Piece.render]
    | tag n => simp [text, Piece.render]
    | ref n => exact this.elim

/-- What is written for a unit that no rule translates. -/
theorem default_unit (lu : Bool) {x : Bil.Unit} (h : FineUnit lower x) : Bil.defaultOut lu x.token = .ok (unitDefault lu x) := by
  unfold unitDefault
  by_cases ht : text x.target = []
  · rw [if_pos ht]
    obtain ⟨w, h1, h2, h3⟩ := Bil.parseDefault_eq x h.wf
    simp only [Bil.defaultOut, h1, Outcome.map_ok, h2, if_pos ht]
  · rw [if_neg ht]
    cases lu with
    | false => exact Bil.C47_default x h.wf ht
    | true => exact Bil.C47_default_lu x h.wf ht h.head

/-- The units as the main loop sees them. -/
def tok (w : Bil.Unit × List Part) : Text × Text := (w.1.token, renderParts w.2)

def FineUnits (lower : Char → Char) (ws : List (Bil.Unit × List Part)) : Prop := ∀ w ∈ ws, FineUnit lower w.1

theorem stream_tokens {s : BilStream} (h : FineStream lower s) : Token.trRead false s.render =
    .ok { toks := tokensOf (renderParts s.lead) (s.words.map tok), rest := [], more := false } := by
  let ts : TrStream := { lead := s.lead, words := s.words.map fun w => (Bil.trWord w.1, w.2) }
  have hts : ts.wf := ⟨h.lead, by
    intro w hw
    obtain ⟨x, hx, rfl⟩ := List.mem_map.1 hw
    exact ⟨trWord_fine (h.words x hx).1, (h.words x hx).2⟩⟩
  have hps : ts.PlainStart := by
    intro w hw b hb
    obtain ⟨x, hx, rfl⟩ := List.mem_map.1 hw
    exact ((h.words x hx).1.wb b hb).2
  have hr : ts.render = s.render := by
    simp [ts, TrStream.render, BilStream.render, List.flatMap_map, Bil.trWord_render]
  have hk := Token.C43_transfer_tokens_partial false ts hts hps [] [] false .eof
  rw [List.append_nil, hr] at hk
  refine hk.trans ?_
  simp [ts, TrStream.units, Bil.trWord_token, Function.comp_def]
  rfl

theorem ruleWords_units {ws : List (Bil.Unit × List Part)} (h : FineUnits lower ws) : ruleWords (ws.map fun w => w.1.token) = .ok (ws.map fun w => unitWord w.1) := by
  induction ws with
  | nil => rfl
  | cons w ws ih =>
    simp only [List.map_cons, ruleWords]
    rw [Bil.C47_rule _ (h w (by simp)).wf, ih (fun x hx => h x (by simp [hx]))]
    rfl

theorem reads_units {ws : List (Bil.Unit × List Part)} (h : FineUnits lower ws) :
    (ws.map fun w => w.1.token).map (Pattern.transferWord lower) = (ws.map fun w => w.1.source.map (Bil.pieceStep lower)).map .ok := by
  rw [List.map_map, List.map_map]
  apply List.map_congr_left
  intro w hw
  exact Bil.C47_pattern lower w.1 (h w hw).wf

/-! ## The blanks -/

theorem pushBlanks_eq (k n : Nat) (bs q : List Text) (hn : k - 1 - q.length ≤ n) (hb : k - 1 - q.length ≤ bs.length) :
    pushBlanks k n bs q = .ok (q ++ bs.take (k - 1 - q.length)) := by
  induction n generalizing bs q with
  | zero =>
    have : k - 1 - q.length = 0 := by omega
    simp [pushBlanks, this]
  | succ n ih =>
    simp only [pushBlanks]
    split
    · rename_i hq
      cases bs with
      | nil => simp at hb; omega
      | cons b bs =>
        dsimp only
        rw [ih bs (q ++ [b]) (by simp; omega) (by simp at hb ⊢; omega)]
        have e : k - 1 - q.length = (k - 1 - (q ++ [b]).length) + 1 := by simp; omega
        rw [e]
        simp
    · rename_i hq
      have e : k - 1 - q.length = 0 := by omega
      rw [ih (bs.drop 1) q (by omega) (by omega), e]
      simp

/-! ## Patterns -/

theorem firstFor_iff (p : Program) (r : Nat) (ws : List (Bil.Unit × List Part)) :
    FirstRule p.cats (p.rules.map (·.1)) (ws.map fun w => w.1.source.map (Bil.pieceStep lower)) r ↔ FirstFor lower p r ws := by
  unfold FirstRule FirstFor FitsUnits
  constructor
  · rintro ⟨⟨k, ns, h1, h2, h3⟩, h4⟩
    rw [List.getElem?_map] at h2
    cases hx : p.rules[k]? with
    | none => rw [hx] at h2; cases h2
    | some rule =>
      rw [hx] at h2
      cases h2
      exact ⟨⟨k, rule, h1, hx, h3⟩, fun k' rule' h5 h6 => h4 k' rule'.1 h5 (by rw [List.getElem?_map, h6]; rfl)⟩
  · rintro ⟨⟨k, rule, h1, h2, h3⟩, h4⟩
    refine ⟨⟨k, rule.1, h1, by rw [List.getElem?_map, h2]; rfl, h3⟩, fun k' ns h5 h6 => ?_⟩
    rw [List.getElem?_map] at h6
    cases hx : p.rules[k']? with
    | none => rw [hx] at h6; cases h6
    | some rule' => rw [hx] at h6; cases h6; exact h4 k' rule' h5 hx

section
variable {minimize : Trans → Trans} (hm : ∀ t, Minimal t (minimize t)) {p : Program} (hp : p.Ok) {m : Trans}
  (hc : Pattern.compile minimize p.cats (p.rules.map (·.1)) = some m)
include hm hp hc

theorem longest_units {ws : List (Bil.Unit × List Part)} (h : FineUnits lower ws) (k r : Nat) :
    (Pattern.matcher m (Pattern.alphabet p.cats) (Pattern.transferWord lower)).Longest [] (ws.map fun w => w.1.token) k r ↔
    1 ≤ k ∧ k ≤ ws.length ∧ FirstFor lower p r (ws.take k) ∧ ∀ k', k < k' → k' ≤ ws.length → ∀ rule ∈ p.rules, ¬ FitsUnits lower p rule.1 (ws.take k') := by
  rw [Pattern.C72_longest_partial minimize hm p.cats hp.plain _ m hc _ _ _ (reads_units h) (by
    intro es hes
    obtain ⟨w, hw, rfl⟩ := List.mem_map.1 hes
    exact (h w hw).read) k r]
  rw [← List.map_take, firstFor_iff, List.length_map]
  simp only [← List.map_take, List.forall_mem_map, FitsUnits]

theorem noMatch_units {ws : List (Bil.Unit × List Part)} (h : FineUnits lower ws) :
    (Pattern.matcher m (Pattern.alphabet p.cats) (Pattern.transferWord lower)).NoMatch [] (ws.map fun w => w.1.token) ↔
    ∀ k, 1 ≤ k → k ≤ ws.length → ∀ rule ∈ p.rules, ¬ FitsUnits lower p rule.1 (ws.take k) := by
  unfold Matcher.NoMatch
  rw [List.length_map]
  refine forall_congr' fun k => forall_congr' fun h1 => forall_congr' fun h2 => ?_
  have hf : FineUnits lower (ws.take k) := fun w hw => h w (List.mem_of_mem_take hw)
  rw [← List.map_take, (Pattern.C72_rule_partial minimize hm p.cats hp.plain _ m hc _ _ _ (reads_units hf) (by
    intro es hes
    obtain ⟨w, hw, rfl⟩ := List.mem_map.1 hes
    exact (hf w hw).read)).2]
  simp only [List.forall_mem_map, FitsUnits]

/-! ## Rules and words -/

omit hm hp hc in
theorem units_of {ws : List Text} (h : ∀ w ∈ ws, ∃ x, FineUnit lower x ∧ x.token = w) :
    ∃ xs : List (Bil.Unit × List Part), FineUnits lower xs ∧ ws = xs.map fun w => w.1.token := by
  induction ws with
  | nil => exact ⟨[], fun _ h => (by cases h), rfl⟩
  | cons w ws ih =>
    obtain ⟨xs, h1, h2⟩ := ih fun w hw => h w (by simp [hw])
    obtain ⟨x, h3, h4⟩ := h w (by simp)
    refine ⟨(x, []) :: xs, fun y hy => ?_, by simp [h2, h4]⟩
    rcases List.mem_cons.1 hy with rfl | hy
    · exact h3
    · exact h1 y hy

/-- A rule that was chosen for words does with them what it does when there are no others. -/
theorem actions_local (env : TEnv) (d : Nat) (lu : Bool) :
    (actions env d lu (p.rules.map (·.2))).LocalFor (Pattern.matcher m (Pattern.alphabet p.cats) (Pattern.transferWord lower))
      (fun w => ∃ x, FineUnit lower x ∧ x.token = w) := by
  intro r ws bs k v banned hP h1 h2 h3 hcl
  obtain ⟨xs, hx, rfl⟩ := units_of hP
  have hxk : FineUnits lower (xs.take k) := fun w hw => hx w (List.mem_of_mem_take hw)
  rw [List.length_map] at h2
  rw [← List.map_take] at hcl
  obtain ⟨_, k', ns, rfl, h5, ⟨ess, h6, h7, _⟩⟩ := Pattern.C72_banned_partial minimize hm p.cats hp.plain _ m hc _ _ _ (reads_units hxk) (by
    intro es hes
    obtain ⟨w, hw, rfl⟩ := List.mem_map.1 hes
    exact (hxk w hw).read) banned r hcl
  have hlen : ns.length = k := by
    have := congrArg List.length h6
    simp only [List.length_map, List.length_take] at this
    omega
  rw [List.getElem?_map] at h5
  cases hr : p.rules[k']? with
  | none => rw [hr] at h5; cases h5
  | some rule =>
    rw [hr] at h5
    cases h5
    have hw : Instr.withinL k rule.2 := hlen ▸ hp.within rule (List.mem_of_getElem? hr)
    have ha : (p.rules.map (·.2))[k' + 1 - 1]? = some rule.2 := by rw [List.getElem?_map, Nat.add_sub_cancel, hr]; rfl
    simp only [actions, applyRule]
    rw [← List.map_take, ruleWords_units hx, ruleWords_units hxk]
    simp only [Outcome.bind, List.length_map, List.length_take]
    rw [pushBlanks_eq k _ bs v.blanks (by omega) (by omega), pushBlanks_eq k _ (bs.take (k - 1)) v.blanks (by omega) (by simp; omega)]
    simp only [Outcome.bind, ha]
    rw [List.take_take, Nat.min_eq_left h2, Nat.min_eq_left (a := k - 1 - v.blanks.length) (b := k - 1) (by omega)]
    generalize v.blanks ++ bs.take (k - 1 - v.blanks.length) = q
    have hcom := processRule_com (X := (xs.drop k).map fun w => unitWord w.1) (Y := ((List.range xs.length).drop k).map some) (n := k)
      { env with lastLword := k } d rule.2 h1 hw
      { v with heap := (xs.take k).map fun w => unitWord w.1, word := (List.range k).map some, blanks := q, out := [] }
      ⟨by simp, fun i hi => by
        simp only [List.mem_map, List.mem_range, Option.some.injEq, exists_eq_right] at hi
        simp only [List.length_map, List.length_take]
        omega⟩
    have e : lift ((xs.drop k).map fun w => unitWord w.1) (((List.range xs.length).drop k).map some)
        { v with heap := (xs.take k).map fun w => unitWord w.1, word := (List.range k).map some, blanks := q, out := [] } =
        { v with heap := xs.map fun w => unitWord w.1, word := (List.range xs.length).map some, blanks := q, out := [] } := by
      unfold lift
      simp only [← List.map_append, List.take_append_drop]
      congr 2
      have : List.range k = (List.range xs.length).take k := by rw [List.take_range, Nat.min_eq_left h2]
      rw [this, List.take_append_drop]
    rw [e] at hcom
    rw [hcom.1]
    cases processRule { env with lastLword := k } d rule.2 { v with heap := (xs.take k).map fun w => unitWord w.1, word := (List.range k).map some, blanks := q, out := [] } <;> rfl
end

/-- What a rule does, for the words it was chosen for. -/
theorem apply_units (env : TEnv) (d : Nat) (lu : Bool) (p : Program) {us : List (Bil.Unit × List Part)} {u : Bil.Unit × List Part}
    (h : FineUnits lower (us ++ [u])) (v : TSt) (hv : v.blanks = []) (r : Nat) (rule : List Text × List Instr) (hr : p.rules[r - 1]? = some rule) :
    (actions env d lu (p.rules.map (·.2))).apply r ((us ++ [u]).map fun w => w.1.token) (us.map fun w => renderParts w.2) (us.length + 1) v =
    (processRule { env with lastLword := us.length + 1 } d rule.2 (ruleState v (us ++ [u]))).map fun (n, s) =>
      (n, s.out, { s with heap := [], word := [], out := [] }) := by
  have ha : (p.rules.map (·.2))[r - 1]? = some rule.2 := by rw [List.getElem?_map, hr]; rfl
  simp only [actions, applyRule]
  rw [ruleWords_units h]
  simp only [Outcome.bind]
  rw [pushBlanks_eq _ _ _ _ (by simp [hv]) (by simp [hv])]
  simp only [ha, hv, ruleState]
  simp
  rw [List.take_of_length_le (by simp)]

/-! ## The rules that should be used, and the main loop -/

theorem units_fst (ws : List (Bil.Unit × List Part)) : (ws.map tok).map (·.1) = ws.map fun w => w.1.token := by simp [tok, Function.comp_def]
theorem units_snd (ws : List (Bil.Unit × List Part)) : (ws.map tok).map (·.2) = ws.map fun w => renderParts w.2 := by simp [tok, Function.comp_def]

theorem take_map_succ {α β : Type} (f : α → β) (us : List α) (u : α) (ws : List α) : ((us ++ u :: ws).map f).take (us.length + 1) = (us ++ [u]).map f := by
  rw [show us ++ u :: ws = (us ++ [u]) ++ ws by simp, List.map_append, List.take_left' (by simp)]

theorem take_map_us {α β : Type} (f : α → β) (us : List α) (u : α) (ws : List α) : ((us ++ u :: ws).map f).take (us.length + 1 - 1) = us.map f := by
  rw [List.map_append, Nat.add_sub_cancel, List.take_left' (by simp)]

theorem prefix_take {α : Type} {l l' : List α} (h : l' <+: l) : l' = l.take l'.length := by
  obtain ⟨r, rfl⟩ := h; simp

section
variable {minimize : Trans → Trans} (hm : ∀ t, Minimal t (minimize t)) {p : Program} (hp : p.Ok) (hk : p.Keeps) {m : Trans}
  (hc : Pattern.compile minimize p.cats (p.rules.map (·.1)) = some m)
include hm hp hk hc

theorem translates_greedy {env : TEnv} {lu : Bool} {v : TSt} {ws : List (Bil.Unit × List Part)} {out : Text} (h : Translates lower env lu p v ws out)
    (hf : FineUnits lower ws) (hv : v.blanks = []) :
    ∃ d0, ∀ d, d0 ≤ d → Greedy (Pattern.matcher m (Pattern.alphabet p.cats) (Pattern.transferWord lower)) (actions env d lu (p.rules.map (·.2))) true false [] v
      (ws.map tok) out := by
  induction h with
  | done => exact ⟨0, fun _ _ => .done⟩
  | @word v ws u out h1 _ ih =>
    obtain ⟨d0, hd⟩ := ih (fun w hw => hf w (by simp [hw])) hv
    refine ⟨d0, fun d h => Greedy.dflt ?_ (default_unit lu (hf u (by simp))) (hd d h)⟩
    have := (noMatch_units hm hp hc hf).2 (fun k h2 h3 => by
      obtain ⟨k, rfl⟩ : ∃ k', k = k' + 1 := ⟨k - 1, by omega⟩
      rw [List.take_succ_cons]
      exact h1 (ws.take k) (List.take_prefix _ _))
    rw [← units_fst] at this
    exact this
  | @rule v s ws us u r d1 rule n out h1 h2 h3 h4 _ ih =>
    have e : us ++ u :: ws = (us ++ [u]) ++ ws := by simp
    have hpr : processRule { env with lastLword := us.length + 1 } d1 rule.2 (ruleState v (us ++ [u])) = .ok (n, s) := h4
    have hs : s.blanks = [] := by
      unfold processRule at h4
      obtain ⟨⟨w1, s1⟩, h5, h6⟩ := ok_map_eq h4
      cases h6
      rfl
    obtain ⟨d0, hd⟩ := ih (fun w hw => hf w (by simp [hw])) hs
    refine ⟨max d0 d1, fun d h => ?_⟩
    have hn := processRule_goes (hk rule (List.mem_of_getElem? h3)) hpr
    subst hn
    have hl : (Pattern.matcher m (Pattern.alphabet p.cats) (Pattern.transferWord lower)).Longest [] (((us ++ u :: ws).map tok).map (·.1)) (us.length + 1) r := by
      rw [units_fst]
      refine (longest_units hm hp hc hf _ _).2 ⟨by omega, by simp, ?_, fun k' h6 h7 rule hrule => ?_⟩
      · rw [e, List.take_left' (by simp)]
        exact h1
      · have := h2 (ws.take (k' - (us.length + 1))) (List.take_prefix _ _) (by
          simp only [List.length_append, List.length_cons] at h7
          intro e
          have := congrArg List.length e
          rw [List.length_take, List.length_nil] at this
          omega) rule hrule
        rw [e, List.take_append, List.take_of_length_le (by simp; omega)]
        simpa using this
    have hap := apply_units (lower := lower) env d lu p (fun w hw => hf w (by rw [e]; exact List.mem_append_left _ hw)) v hv r rule h3
    rw [processRule_mono _ (show d1 ≤ d by omega) rule.2 _ _ hpr] at hap
    have key := Greedy.rule (strict := true) (shifted := false) (v := v) (ws := (us ++ u :: ws).map tok) (k := us.length + 1) (r := r) (n := -1) (o := s.out) (b := renderParts u.2)
      (v' := { s with heap := [], word := [], out := [] }) (out := out)
      (a := actions env d lu (p.rules.map (·.2))) hl ?_ (by decide) ?_ ?_
    · exact key
    · rw [units_fst, units_snd, take_map_succ, take_map_us]
      exact hap
    · rw [units_snd]; simp
    · rw [e, List.map_append, List.drop_left' (by simp)]
      exact hd d (by omega)

theorem greedy_translates {env : TEnv} {d : Nat} {lu : Bool} {v : TSt} {ws : List (Bil.Unit × List Part)} {out : Text} (hf : FineUnits lower ws) (hv : v.blanks = [])
    (h : Greedy (Pattern.matcher m (Pattern.alphabet p.cats) (Pattern.transferWord lower)) (actions env d lu (p.rules.map (·.2))) true false [] v
      (ws.map tok) out) : Translates lower env lu p v ws out := by
  have apply_eq : ∀ {ws : List (Bil.Unit × List Part)} {v : TSt} {k r : Nat} {o : Text} {n : Int} {v' : TSt}, FineUnits lower ws → v.blanks = [] →
      (Pattern.matcher m (Pattern.alphabet p.cats) (Pattern.transferWord lower)).Longest [] ((ws.map tok).map (·.1)) k r →
      (actions env d lu (p.rules.map (·.2))).apply r (((ws.map tok).map (·.1)).take k) (((ws.map tok).map (·.2)).take (k - 1)) k v = .ok (n, o, v') →
      ∃ us u ws' rule s, ws = us ++ u :: ws' ∧ k = us.length + 1 ∧ FirstFor lower p r (us ++ [u]) ∧
        (∀ vs, vs <+: ws' → vs ≠ [] → ∀ rule ∈ p.rules, ¬ FitsUnits lower p rule.1 (us ++ u :: vs)) ∧ p.rules[r - 1]? = some rule ∧
        processRule { env with lastLword := us.length + 1 } d rule.2 (ruleState v (us ++ [u])) = .ok (n, s) ∧ n = -1 ∧ o = s.out ∧
        v' = { s with heap := [], word := [], out := [] } := by
    intro ws v k r o n v' hf hv hl ha
    rw [units_fst] at hl
    obtain ⟨h1, h2, h3, h4⟩ := (longest_units hm hp hc hf k r).1 hl
    obtain ⟨us, u, ws', rfl, rfl⟩ : ∃ us u ws', ws = us ++ u :: ws' ∧ k = us.length + 1 := by
      refine ⟨ws.take (k - 1), ws[k - 1]'(by omega), ws.drop k, ?_, by simp; omega⟩
      have : ws.drop (k - 1) = ws[k - 1]'(by omega) :: ws.drop k := by
        rw [List.drop_eq_getElem_cons (by omega), show k - 1 + 1 = k by omega]
      rw [← this, List.take_append_drop]
    have e : us ++ u :: ws' = (us ++ [u]) ++ ws' := by simp
    rw [e, List.take_left' (by simp)] at h3
    obtain ⟨⟨k', rule, rfl, hr, _⟩, _⟩ := id h3
    rw [units_fst, units_snd, take_map_succ, take_map_us, apply_units (lower := lower) env d lu p (fun w hw => hf w (by rw [e]; exact List.mem_append_left _ hw)) v hv _ rule hr] at ha
    obtain ⟨⟨n1, s1⟩, h5, h6⟩ := ok_map_eq ha
    cases h6
    refine ⟨us, u, ws', rule, s1, rfl, rfl, h3, fun vs hvs hne rule' hr' => ?_, hr, h5, processRule_goes (hk rule (List.mem_of_getElem? hr)) h5, rfl, rfl⟩
    have hlen : 0 < vs.length := List.length_pos_iff.2 hne
    have := h4 (us.length + 1 + vs.length) (by omega) (by have := hvs.length_le; simp; omega) rule' hr'
    rw [e, List.take_append, List.take_of_length_le (by simp), show us.length + 1 + vs.length - (us ++ [u]).length = vs.length by simp, ← prefix_take hvs] at this
    simpa using this
  generalize hsh : false = sh at h
  generalize hban : ([] : List Nat) = banned at h
  generalize hw : ws.map tok = units at h
  induction h generalizing ws with
  | done => rw [List.map_eq_nil_iff.1 hw]; exact .done
  | @rule shifted banned v units k r n o v' out b hl ha hn hb _ ih =>
    subst hw; subst hban
    obtain ⟨us, u, ws', rule, s, rfl, rfl, h1, h2, h3, h4, rfl, rfl, rfl⟩ := apply_eq hf hv hl ha
    have hs : s.blanks = [] := by
      unfold processRule at h4
      obtain ⟨⟨w1, s1⟩, h5, h6⟩ := ok_map_eq h4
      cases h6
      rfl
    have e : us ++ u :: ws' = (us ++ [u]) ++ ws' := by simp
    have hb' : b = renderParts u.2 := by
      rw [units_snd] at hb; simpa using hb.symm
    subst hb'
    exact Translates.rule h1 h2 h3 h4 (ih (fun w hw => hf w (by simp [hw])) hs rfl rfl (by rw [e, List.map_append, List.drop_left' (by simp)]))
  | @shift shifted banned v units k r o v' out b n hl ha _ _ _ _ _ ih =>
    subst hw; subst hban
    obtain ⟨us, u, ws', rule, s, _, _, _, _, _, _, hn, _⟩ := apply_eq hf hv hl ha
    omega
  | @reject shifted banned v units k r o v' out hl ha _ _ ih =>
    subst hw; subst hban
    obtain ⟨us, u, ws', rule, s, _, _, _, _, _, _, hn, _⟩ := apply_eq hf hv hl ha
    omega
  | @dflt shifted banned v w b units o out h1 h2 _ ih =>
    subst hban
    cases ws with
    | nil => cases hw
    | cons u ws =>
      simp only [List.map_cons, List.cons.injEq] at hw
      obtain ⟨hu, rfl⟩ := hw
      simp only [tok, Prod.mk.injEq] at hu
      obtain ⟨rfl, rfl⟩ := hu
      have h2 : Bil.defaultOut lu u.1.token = .ok o := h2
      rw [default_unit lu (hf u (by simp))] at h2
      cases h2
      refine Translates.word ?_ (ih (fun w hw => hf w (by simp [hw])) hv rfl rfl rfl)
      have h3 := (noMatch_units hm hp hc hf).1 (by rw [← units_fst]; exact h1)
      intro vs hvs rule hr
      have := h3 (vs.length + 1) (by omega) (by have := hvs.length_le; simp; omega) rule hr
      rw [List.take_succ_cons, ← prefix_take hvs] at this
      exact this
end

/-! ## A run that ends follows the rules -/

section
variable {σ V : Type}

/-- The same actions, but something that fails writes `z` instead. -/
def orElse (z : Text) (a : Actions V) : Actions V where
  dflt w := match a.dflt w with
    | .ok o => .ok o
    | _ => .ok z
  apply r ws bs k v := match a.apply r ws bs k v with
    | .ok x => .ok x
    | _ => .ok (-1, z, v)

theorem orElse_local {M : Matcher σ} {P : Text → Prop} {a : Actions V} (h : a.LocalFor M P) (z : Text) : (orElse z a).LocalFor M P := by
  intro r ws bs k v banned h1 h2 h3 h4 h5
  simp only [orElse]
  rw [h r ws bs k v banned h1 h2 h3 h4 h5]

theorem orElse_step {M : Matcher σ} {a : Actions V} {toks : List Tok} {s : LoopSt σ V} {x : LoopSt σ V ⊕ Text} (z : Text) (h : loopStep M a toks s = .ok x) :
    loopStep M (orElse z a) toks s = .ok x := by
  have hd : ∀ s', handleDead M a toks s = .ok s' → handleDead M (orElse z a) toks s = .ok s' := by
    intro s' h
    unfold handleDead at h ⊢
    cases hr : s.rule with
    | some r =>
      rw [hr] at h
      dsimp only at h ⊢
      obtain ⟨y, h1, h2⟩ := ok_map_eq h
      have : (orElse z a).apply r s.tmpword s.tmpblank s.lastLword s.vars = .ok y := by simp only [orElse]; rw [h1]
      rw [this, Outcome.map_ok, h2]
    | none =>
      rw [hr] at h
      dsimp only at h ⊢
      cases hw : s.tmpword with
      | nil => rw [hw] at h; exact h
      | cons w ws =>
        rw [hw] at h
        dsimp only at h ⊢
        obtain ⟨y, h1, h2⟩ := ok_map_eq h
        have : (orElse z a).dflt w = .ok y := by simp only [orElse]; rw [h1]
        rw [this, Outcome.map_ok, h2]
  unfold loopStep at h ⊢
  split at h
  · rename_i hx
    obtain ⟨y, h1, h2⟩ := ok_map_eq h
    rw [if_pos hx, hd y h1, Outcome.map_ok, h2]
  · rename_i hx
    rw [if_neg hx]; exact h

theorem orElse_run {M : Matcher σ} {a : Actions V} {toks : List Tok} {n : Nat} {s : LoopSt σ V} {t : Text} (z : Text) (h : loopRun M a toks n s = some (.ok t)) :
    loopRun M (orElse z a) toks n s = some (.ok t) := by
  induction n generalizing s with
  | zero => simp [loopRun] at h
  | succ n ih =>
    simp only [loopRun] at h ⊢
    cases hx : loopStep M a toks s with
    | ok x =>
      rw [hx] at h
      rw [orElse_step z hx]
      cases x with
      | inl s' => exact ih h
      | inr t' => exact h
    | fail => rw [hx] at h; cases h
    | diverge => rw [hx] at h; cases h
    | ub => rw [hx] at h; cases h

theorem longest_or (M : Matcher σ) (banned : List Nat) (ws : List Text) : (∃ k r, M.Longest banned ws k r) ∨ M.NoMatch banned ws := by
  have key : ∀ n, n ≤ ws.length → (∃ k r, 1 ≤ k ∧ k ≤ n ∧ M.classify (M.after (ws.take k)) banned = some r ∧
      ∀ k', k < k' → k' ≤ n → M.classify (M.after (ws.take k')) banned = none) ∨ ∀ k, 1 ≤ k → k ≤ n → M.classify (M.after (ws.take k)) banned = none := by
    intro n
    induction n with
    | zero => intro _; exact Or.inr fun k h1 h2 => by omega
    | succ n ih =>
      intro hn
      cases hx : M.classify (M.after (ws.take (n + 1))) banned with
      | some r => exact Or.inl ⟨n + 1, r, by omega, by omega, hx, fun k' h1 h2 => by omega⟩
      | none =>
        have hlast : ∀ k', k' ≤ n + 1 → ¬ k' ≤ n → M.classify (M.after (ws.take k')) banned = none := by
          intro k' h1 h2
          have : k' = n + 1 := by omega
          subst this; exact hx
        rcases ih (by omega) with ⟨k, r, h1, h2, h3, h4⟩ | h1
        · refine Or.inl ⟨k, r, h1, by omega, h3, fun k' h5 h6 => ?_⟩
          by_cases h : k' ≤ n
          · exact h4 k' h5 h
          · exact hlast k' h6 h
        · refine Or.inr fun k h2 h3 => ?_
          by_cases h : k ≤ n
          · exact h1 k h2 h
          · exact hlast k h3 h
  rcases key ws.length (Nat.le_refl _) with ⟨k, r, h1, h2, h3, h4⟩ | h1
  · exact Or.inl ⟨k, r, h1, h2, h3, h4⟩
  · exact Or.inr h1

/-- If no rule is rejected there is always something that should be written. -/
theorem orElse_greedy (M : Matcher σ) (a : Actions V) (z : Text)
    (ha : ∀ r ws bs k v x, a.apply r ws bs k v = .ok x → x.1 < 0) (v : V) (ws : List (Text × Text)) : ∃ out, Greedy M (orElse z a) true false [] v ws out := by
  generalize hn : ws.length = n
  induction n using Nat.strongRecOn generalizing ws v with
  | ind n ih =>
    cases ws with
    | nil => exact ⟨_, .done⟩
    | cons w ws =>
      rcases longest_or M [] ((w :: ws).map (·.1)) with ⟨k, r, hl⟩ | hno
      · have h1 := hl.1
        have h2 := hl.2.1
        rw [List.length_map] at h2
        obtain ⟨b, hb⟩ : ∃ b, ((w :: ws).map (·.2))[k - 1]? = some b := ⟨_, List.getElem?_eq_getElem (by rw [List.length_map]; omega)⟩
        obtain ⟨n1, o, v', h3, h4⟩ : ∃ n1 o v', (orElse z a).apply r (((w :: ws).map (·.1)).take k) (((w :: ws).map (·.2)).take (k - 1)) k v = .ok (n1, o, v') ∧ n1 < 0 := by
          simp only [orElse]
          cases hx : a.apply r (((w :: ws).map (·.1)).take k) (((w :: ws).map (·.2)).take (k - 1)) k v with
          | ok x => exact ⟨x.1, x.2.1, x.2.2, rfl, ha _ _ _ _ _ _ hx⟩
          | fail => exact ⟨-1, z, v, rfl, by decide⟩
          | diverge => exact ⟨-1, z, v, rfl, by decide⟩
          | ub => exact ⟨-1, z, v, rfl, by decide⟩
        obtain ⟨out, ho⟩ := ih ((w :: ws).drop k).length (by rw [List.length_drop]; omega) v' _ rfl
        exact ⟨_, Greedy.rule hl h3 h4 hb ho⟩
      · obtain ⟨o, h3⟩ : ∃ o, (orElse z a).dflt w.1 = .ok o := by
          simp only [orElse]
          cases a.dflt w.1 <;> exact ⟨_, rfl⟩
        obtain ⟨out, ho⟩ := ih ws.length (by simp at hn; omega) v _ rfl
        exact ⟨_, Greedy.dflt hno h3 ho⟩

/-- If `z` is longer than all that is written, it was not written. -/
theorem orElse_back {M : Matcher σ} {a : Actions V} {z : Text} {sh : Bool} {banned : List Nat} {v : V} {ws : List (Text × Text)} {out : Text}
    (h : Greedy M (orElse z a) true sh banned v ws out) (hz : out.length < z.length) : Greedy M a true sh banned v ws out := by
  have hap : ∀ {r ws bs k v n o v'}, (orElse z a).apply r ws bs k v = .ok (n, o, v') → o.length < z.length → a.apply r ws bs k v = .ok (n, o, v') := by
    intro r ws bs k v n o v' h hlt
    simp only [orElse] at h
    split at h
    · rename_i x hx; rw [hx]; exact h
    · cases h; omega
  have hdf : ∀ {w o}, (orElse z a).dflt w = .ok o → o.length < z.length → a.dflt w = .ok o := by
    intro w o h hlt
    simp only [orElse] at h
    split at h
    · rename_i x hx; rw [hx]; exact h
    · cases h; omega
  induction h with
  | done => exact .done
  | rule h1 h2 h3 h4 _ ih =>
    simp only [List.length_append] at hz
    exact .rule h1 (hap h2 (by omega)) h3 h4 (ih (by omega))
  | shift h1 h2 h3 h4 h5 h6 _ ih =>
    simp only [List.length_append] at hz
    exact .shift h1 (hap h2 (by omega)) h3 h4 h5 h6 (ih (by omega))
  | reject h1 h2 h3 _ ih =>
    simp only [List.length_append] at hz
    exact .reject h1 (hap h2 (by omega)) h3 (ih (by omega))
  | dflt h1 h2 _ ih =>
    simp only [List.length_append] at hz
    exact .dflt h1 (hdf h2 (by omega)) (ih (by omega))

/-- A run of the main loop that ends has written what the rules that should be used write. -/
theorem greedy_of_run {M : Matcher σ} (hM : M.Ok) {P : Text → Prop} {a : Actions V} (hl : a.LocalFor M P) (ha : ∀ r ws bs k v x, a.apply r ws bs k v = .ok x → x.1 < 0)
    (b : Text) (ws : List (Text × Text)) (hP : ∀ x ∈ ws, P x.1) (v : V) {n : Nat} {t : Text} (h : loopRun M a (tokensOf b ws) n (loopInit M v) = some (.ok t)) :
    ∃ out, t = b ++ out ∧ Greedy M a true false [] v ws out := by
  have h1 := orElse_run (List.replicate (t.length + 1) 'x') h
  obtain ⟨out, h2⟩ := orElse_greedy M a (List.replicate (t.length + 1) 'x') ha v ws
  obtain ⟨n', h3⟩ := greedy_runs hM (orElse_local hl _) b ws hP v h2
  have e : t = b ++ out := by
    have h4 := Token.loopRun_mono (k := n') h1
    have h5 := Token.loopRun_mono (k := n) h3
    rw [Nat.add_comm n' n, h4] at h5
    simpa using h5
  exact ⟨out, e, orElse_back h2 (by rw [e]; simp; omega)⟩
end

/-- **C74.** For an input in which special characters are escaped, and rules whose positions are those of their patterns and none of which is rejected, apertium-transfer
(with the bilingual dictionary applied before) writes exactly what the rules say: the longest sequence of units, from the left, that fits a pattern is translated by
the first rule it fits, which gets just those units and the blanks between them; other units are translated by themselves; all between is kept.  It ends normally only
if there is such a translation. -/
theorem C74_transfer_partial (minimize : Trans → Trans) (hm : ∀ t, Minimal t (minimize t)) (env : TEnv) (lu : Bool) (vars : Text → Text) (p : Program) (hp : p.Ok)
    (hk : p.Keeps) (s : BilStream) (h : FineStream lower s) (t : Text) :
    Runs minimize lower env lu vars p s.render t ↔
    ∃ out, t = renderParts s.lead ++ out ∧ Translates lower env lu p (startState vars) s.words out := by
  obtain ⟨m, hc⟩ := Pattern.C72_compiles minimize hm p.cats hp.plain (p.rules.map (·.1)) (by
    intro ns hns
    obtain ⟨rule, hr, rfl⟩ := List.mem_map.1 hns
    exact hp.defined rule hr)
  have hM := Pattern.C72_automaton_partial minimize hm p.cats hp.plain (p.rules.map (·.1)) (by
    intro ns hns
    obtain ⟨rule, hr, rfl⟩ := List.mem_map.1 hns
    exact hp.nonempty rule hr) m hc (Pattern.transferWord lower)
  have hf : FineUnits lower s.words := fun w hw => (h.words w hw).1
  have hP : ∀ x ∈ s.words.map tok, ∃ y, FineUnit lower y ∧ y.token = x.1 := by
    intro x hx
    obtain ⟨w, hw, rfl⟩ := List.mem_map.1 hx
    exact ⟨w.1, hf w hw, rfl⟩
  constructor
  · rintro ⟨m', rd, d, n, h1, h2, h3⟩
    rw [hc] at h1
    cases h1
    rw [stream_tokens h] at h2
    cases h2
    obtain ⟨out, rfl, h4⟩ := greedy_of_run hM (actions_local hm hp hc env d lu) (by
      intro r ws bs k v x hx
      simp only [actions, applyRule] at hx
      obtain ⟨tw, _, hx⟩ := ok_bind_eq hx
      obtain ⟨q, _, hx⟩ := ok_bind_eq hx
      split at hx
      · cases hx
      · rename_i action ha
        obtain ⟨⟨n1, s1⟩, h5, h6⟩ := ok_map_eq hx
        cases h6
        obtain ⟨rule, hr, rfl⟩ := List.mem_map.1 (List.mem_of_getElem? ha)
        rw [processRule_goes (hk rule hr) h5]
        show (-1 : Int) < 0
        decide) _ _ hP _ h3
    exact ⟨out, rfl, greedy_translates hm hp hk hc hf rfl h4⟩
  · rintro ⟨out, rfl, h1⟩
    obtain ⟨d, hd⟩ := translates_greedy hm hp hk hc h1 hf rfl
    obtain ⟨n, hn⟩ := greedy_runs hM (actions_local hm hp hc env d lu) (renderParts s.lead) _ hP _ (hd d (Nat.le_refl _))
    exact ⟨m, _, d, n, hc, stream_tokens h, hn⟩

/-- **C74.** There is at most one output. -/
theorem C74_unique_partial (minimize : Trans → Trans) (hm : ∀ t, Minimal t (minimize t)) (env : TEnv) (lu : Bool) (vars : Text → Text) (p : Program) (hp : p.Ok)
    (hk : p.Keeps) (s : BilStream) (h : FineStream lower s) (o o' : Text) (h1 : Translates lower env lu p (startState vars) s.words o)
    (h2 : Translates lower env lu p (startState vars) s.words o') : o = o' := by
  obtain ⟨m, hc⟩ := Pattern.C72_compiles minimize hm p.cats hp.plain (p.rules.map (·.1)) (by
    intro ns hns
    obtain ⟨rule, hr, rfl⟩ := List.mem_map.1 hns
    exact hp.defined rule hr)
  have hM := Pattern.C72_automaton_partial minimize hm p.cats hp.plain (p.rules.map (·.1)) (by
    intro ns hns
    obtain ⟨rule, hr, rfl⟩ := List.mem_map.1 hns
    exact hp.nonempty rule hr) m hc (Pattern.transferWord lower)
  have hf : FineUnits lower s.words := fun w hw => (h.words w hw).1
  have hP : ∀ x ∈ s.words.map tok, ∃ y, FineUnit lower y ∧ y.token = x.1 := by
    intro x hx
    obtain ⟨w, hw, rfl⟩ := List.mem_map.1 hx
    exact ⟨w.1, hf w hw, rfl⟩
  obtain ⟨d1, hd1⟩ := translates_greedy hm hp hk hc h1 hf rfl
  obtain ⟨d2, hd2⟩ := translates_greedy hm hp hk hc h2 hf rfl
  obtain ⟨n1, e1⟩ := greedy_runs hM (actions_local hm hp hc env (max d1 d2) lu) [] _ hP _ (hd1 _ (by omega))
  obtain ⟨n2, e2⟩ := greedy_runs hM (actions_local hm hp hc env (max d1 d2) lu) [] _ hP _ (hd2 _ (by omega))
  have e3 := Token.loopRun_mono (k := n2) e1
  have e4 := Token.loopRun_mono (k := n1) e2
  rw [Nat.add_comm n2 n1, e3] at e4
  simpa using e4

end Verif.Whole
