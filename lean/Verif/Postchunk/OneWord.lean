import Verif.Transfer.LoopProps
import Verif.Token.Props
import Verif.Whole.Mono
/-!
# The main loop, when patterns have one word each: every word is treated by itself
-/
namespace Verif.Postchunk
open Verif.Transfer

variable {σ V : Type}

/-- What is done at a word with the text `b` after it: the rule that is chosen for it is applied, or the default. -/
def act (M : Matcher σ) (a : Actions V) (w b : Text) (v : V) : Outcome (Text × V) :=
  match M.classify (M.word M.init w) [] with
  | some r => (a.apply r [w] [b] 1 v).map fun x => x.2
  | none => (a.dflt w).map fun o => (o, v)

/-- What should be written: for each word what is done there, and the text after it. -/
inductive Each (M : Matcher σ) (a : Actions V) : V → List (Text × Text) → Text → Prop
  | done {v : V} : Each M a v [] []
  | step {v v' : V} {w b o out : Text} {ws : List (Text × Text)} : act M a w b v = .ok (o, v') → Each M a v' ws out → Each M a v ((w, b) :: ws) (o ++ b ++ out)

/-- The rest of an iteration and of the loop, after `handleDead`. -/
def cont (M : Matcher σ) (a : Actions V) (toks : List Tok) (n : Nat) (s : LoopSt σ V) : Option (Outcome Text) :=
  match readNext M toks s with
  | .inl s' => loopRun M a toks n s'
  | .inr t => some (.ok t)

theorem loopRun_alive {M : Matcher σ} {a : Actions V} {toks : List Tok} {n : Nat} {s : LoopSt σ V} (h : M.dead s.ms = false) :
    loopRun M a toks (n + 1) s = cont M a toks n s := by
  simp only [loopRun, loopStep, h, cont, Bool.false_eq_true, if_false, Outcome.map]
  cases readNext M toks s <;> rfl

theorem loopRun_dead {M : Matcher σ} {a : Actions V} {toks : List Tok} {n : Nat} {s : LoopSt σ V} (h : M.dead s.ms = true) :
    loopRun M a toks (n + 1) s = match handleDead M a toks s with
      | .ok s' => cont M a toks n s'
      | .fail => some .fail
      | .diverge => some .diverge
      | .ub => some .ub := by
  simp only [loopRun, loopStep, h, if_true, cont]
  cases handleDead M a toks s with
  | ok s' => simp only [Outcome.map]; cases readNext M toks s' <;> rfl
  | fail => rfl
  | diverge => rfl
  | ub => rfl

/-- Before the blank at `q`. -/
structure AtBlank (M : Matcher σ) (q : Nat) (b : Text) (v : V) (o : Text) (s : LoopSt σ V) : Prop where
  ms : s.ms = M.init
  tmpword : s.tmpword = []
  tmpblank : s.tmpblank = [] ∨ s.tmpblank = [b]
  rule : s.rule = none
  banned : s.banned = []
  last : s.last = q
  pos : s.pos = q
  vars : s.vars = v
  out : s.out = o

/-- Before the word at `p`. -/
structure AtWord (M : Matcher σ) (p : Nat) (v : V) (o : Text) (s : LoopSt σ V) : Prop where
  ms : s.ms = M.init
  tmpword : s.tmpword = []
  tmpblank : s.tmpblank = []
  rule : s.rule = none
  banned : s.banned = []
  last : s.last = p
  pos : s.pos = p
  vars : s.vars = v
  out : s.out = o

variable {M : Matcher σ} (hM : M.Ok) {a : Actions V} {toks : List Tok}

theorem getElem_of_drop {α : Type} {l r : List α} {p : Nat} {x : α} (h : l.drop p = x :: r) : l[p]? = some x ∧ l.drop (p + 1) = r := by
  constructor
  · have := congrArg (·[0]?) h
    simpa using this
  · have := congrArg (List.drop 1) h
    simpa [List.drop_drop] using this

include hM

theorem cont_blank {q : Nat} {b o w b' : Text} {v : V} {ws : List (Text × Text)} {s : LoopSt σ V} (hs : AtBlank M q b v o s)
    (ht : toks.drop q = tokensOf b ((w, b') :: ws)) :
    ∃ s', AtWord M (q + 1) v (o ++ b) s' ∧ ∀ n, cont M a toks (n + 1) s = cont M a toks n s' := by
  obtain ⟨ms, tmpword, tmpblank, lst, prev, rule, ll, banned, last, hi, vars, out⟩ := s
  obtain ⟨h1, h2, h3, h4, h5, h6, h7, h8, h9⟩ := hs
  dsimp only at h1 h2 h3 h4 h5 h6 h7 h8 h9
  subst h1 h2 h4 h5 h6 h7 h8 h9
  obtain ⟨h10, _⟩ := getElem_of_drop ht
  have h3' : ∃ l, tmpblank ++ [b] = b :: l := by
    rcases h3 with rfl | rfl
    · exact ⟨[], rfl⟩
    · exact ⟨[b], rfl⟩
  obtain ⟨l, hl⟩ := h3'
  refine ⟨⟨M.init, [], [], last + 1, last, none, ll, [], last + 1, max hi (last + 1), vars, out ++ b⟩, ⟨rfl, rfl, rfl, rfl, rfl, rfl, rfl, rfl, rfl⟩, fun n => ?_⟩
  have e : readNext M toks ⟨M.init, [], tmpblank, last, prev, none, ll, [], last, hi, vars, out⟩ =
      .inl ⟨M.blank M.init, [], tmpblank ++ [b], last, prev, none, ll, [], last + 1, max hi (last + 1), vars, out⟩ := by
    simp only [readNext, hM.initClassify, h10, Option.getD]
  rw [cont, e]
  dsimp only
  rw [loopRun_dead hM.initBlank]
  simp only [handleDead, hl]

theorem cont_end {q : Nat} {b o : Text} {v : V} {s : LoopSt σ V} (hs : AtBlank M q b v o s) (ht : toks.drop q = tokensOf b []) (n : Nat) :
    cont M a toks n s = some (.ok (o ++ b)) := by
  obtain ⟨ms, tmpword, tmpblank, lst, prev, rule, ll, banned, last, hi, vars, out⟩ := s
  obtain ⟨h1, h2, h3, h4, h5, h6, h7, h8, h9⟩ := hs
  dsimp only at h1 h2 h3 h4 h5 h6 h7 h8 h9
  subst h1 h2 h4 h5 h6 h7 h8 h9
  obtain ⟨h10, _⟩ := getElem_of_drop ht
  unfold cont
  simp only [readNext, hM.initClassify, h10, Option.getD]
  rfl

theorem cont_word (hneg : ∀ r ws bs k v x, a.apply r ws bs k v = .ok x → x.1 < 0) {p : Nat} {w b o : Text} {v : V} {ws : List (Text × Text)} {s : LoopSt σ V}
    (hs : AtWord M p v o s) (hone : M.dead (M.blank (M.word M.init w)) = true) (ht : toks.drop p = .word w :: tokensOf b ws) :
    ∃ k, (∀ o' v', act M a w b v = .ok (o', v') → ∃ s', AtBlank M (p + 1) b v' (o ++ o') s' ∧ ∀ n, cont M a toks (n + k) s = cont M a toks n s') ∧
      ((∀ x, act M a w b v ≠ .ok x) → ∀ n t, cont M a toks (n + k) s ≠ some (.ok t)) := by
  obtain ⟨ms, tmpword, tmpblank, lst, prev, rule, ll, banned, last, hi, vars, out⟩ := s
  obtain ⟨h1, h2, h3, h4, h5, h6, h7, h8, h9⟩ := hs
  dsimp only at h1 h2 h3 h4 h5 h6 h7 h8 h9
  subst h1 h2 h3 h4 h5 h6 h7 h8 h9
  obtain ⟨h10, h11⟩ := getElem_of_drop ht
  have e1 : ∀ n, cont M a toks n ⟨M.init, [], [], last, prev, none, ll, [], last, hi, vars, out⟩ =
      loopRun M a toks n ⟨M.word M.init w, [w], [], last, prev, none, ll, [], last + 1, max hi (last + 1), vars, out⟩ := by
    intro n
    unfold cont
    simp only [readNext, hM.initClassify, h10, Option.getD]
    rfl
  have hb : bufNext last (max hi (last + 1)) = last + 1 := by unfold bufNext; rw [if_neg (by omega)]
  cases hd : M.dead (M.word M.init w) with
  | true =>
    have hcl := hM.deadClassify _ [] hd
    refine ⟨1, ?_, ?_⟩
    · intro o' v' ha
      simp only [act, hcl] at ha
      obtain ⟨o1, h12, h13⟩ := ok_map_eq ha
      cases h13
      refine ⟨⟨M.init, [], [], last + 1, last, none, ll, [], last + 1, max hi (last + 1), vars, out ++ o'⟩, ⟨rfl, rfl, .inl rfl, rfl, rfl, rfl, rfl, rfl, rfl⟩, fun n => ?_⟩
      rw [e1, loopRun_dead hd]
      simp only [handleDead, h12, Outcome.map, hb]
    · intro ha n t
      simp only [act, hcl] at ha
      rw [e1, loopRun_dead hd]
      simp only [handleDead]
      cases hx : a.dflt w with
      | ok y => rw [hx] at ha; exact absurd rfl (ha _)
      | fail => simp [Outcome.map]
      | diverge => simp [Outcome.map]
      | ub => simp [Outcome.map]
  | false =>
    -- the next token, blank or end
    have hnext : ∃ ms2, M.dead ms2 = true ∧ ∀ s : LoopSt σ V, s.ms = M.word M.init w → s.pos = last + 1 → s.tmpword = [w] → s.tmpblank = [] → s.banned = [] → s.rule = none → s.last = last →
        readNext M toks s = .inl ⟨ms2, [w], [b], if M.classify (M.word M.init w) [] = none then last else last + 1, s.prev, M.classify (M.word M.init w) [],
          if M.classify (M.word M.init w) [] = none then s.lastLword else 1, [], last + 2, max s.hi (last + 2), s.vars, s.out⟩ := by
      cases ws with
      | nil =>
        obtain ⟨h12, _⟩ := getElem_of_drop (h11.trans (rfl : tokensOf b [] = [.eof b]))
        refine ⟨M.cleared, hM.cleared, ?_⟩
        rintro ⟨ms, tmpword, tmpblank, last', prev, rule, ll, banned, pos, hi, vars, out⟩ g1 g2 g3 g4 g5 g6 g7
        dsimp only at g1 g2 g3 g4 g5 g6 g7
        subst g1 g2 g3 g4 g5 g6 g7
        simp only [readNext]
        cases M.classify (M.word M.init w) [] with
        | none => simp [h12]
        | some r => simp [h12]
      | cons x ws =>
        obtain ⟨w', b'⟩ := x
        obtain ⟨h12, _⟩ := getElem_of_drop (h11.trans (rfl : tokensOf b ((w', b') :: ws) = .blank b :: .word w' :: tokensOf b' ws))
        refine ⟨M.blank (M.word M.init w), hone, ?_⟩
        rintro ⟨ms, tmpword, tmpblank, last', prev, rule, ll, banned, pos, hi, vars, out⟩ g1 g2 g3 g4 g5 g6 g7
        dsimp only at g1 g2 g3 g4 g5 g6 g7
        subst g1 g2 g3 g4 g5 g6 g7
        simp only [readNext]
        cases M.classify (M.word M.init w) [] with
        | none => simp [h12]
        | some r => simp [h12]
    obtain ⟨ms2, hdead, hnext⟩ := hnext
    have e2 : ∀ n, cont M a toks (n + 2) ⟨M.init, [], [], last, prev, none, ll, [], last, hi, vars, out⟩ =
        loopRun M a toks (n + 1) ⟨ms2, [w], [b], if M.classify (M.word M.init w) [] = none then last else last + 1, prev, M.classify (M.word M.init w) [],
          if M.classify (M.word M.init w) [] = none then ll else 1, [], last + 2, max (max hi (last + 1)) (last + 2), vars, out⟩ := by
      intro n
      rw [e1, loopRun_alive hd]
      unfold cont
      rw [hnext _ rfl rfl rfl rfl rfl rfl rfl]
    have hb2 : bufNext last (max (max hi (last + 1)) (last + 2)) = last + 1 := by unfold bufNext; rw [if_neg (by omega)]
    refine ⟨2, ?_, ?_⟩
    · intro o' v' ha
      cases hcl : M.classify (M.word M.init w) [] with
      | none =>
        simp only [act, hcl] at ha
        obtain ⟨o1, h12, h13⟩ := ok_map_eq ha
        cases h13
        refine ⟨⟨M.init, [], [b], last + 1, last, none, ll, [], last + 1, max (max hi (last + 1)) (last + 2), vars, out ++ o'⟩,
          ⟨rfl, rfl, .inr rfl, rfl, rfl, rfl, rfl, rfl, rfl⟩, fun n => ?_⟩
        rw [e2, loopRun_dead hdead]
        simp only [handleDead, hcl, h12, Outcome.map, if_true, hb2]
      | some r =>
        simp only [act, hcl] at ha
        obtain ⟨⟨n1, o1, v1⟩, h12, h13⟩ := ok_map_eq ha
        cases h13
        refine ⟨⟨M.init, [], [], last + 1, prev, none, 1, [], last + 1, max (max hi (last + 1)) (last + 2), v', out ++ o'⟩,
          ⟨rfl, rfl, .inl rfl, rfl, rfl, rfl, rfl, rfl, rfl⟩, fun n => ?_⟩
        have hn := hneg _ _ _ _ _ _ h12
        dsimp only at hn
        rw [e2, loopRun_dead hdead]
        simp only [handleDead, hcl, h12, Outcome.map, reduceCtorEq, if_false, if_pos hn]
    · intro ha n t
      rw [e2, loopRun_dead hdead]
      cases hcl : M.classify (M.word M.init w) [] with
      | none =>
        simp only [act, hcl] at ha
        simp only [handleDead]
        cases hx : a.dflt w with
        | ok y => rw [hx] at ha; exact absurd rfl (ha _)
        | fail => simp [Outcome.map]
        | diverge => simp [Outcome.map]
        | ub => simp [Outcome.map]
      | some r =>
        simp only [act, hcl] at ha
        simp only [handleDead, reduceCtorEq, if_false]
        cases hx : a.apply r [w] [b] 1 vars with
        | ok y => rw [hx] at ha; exact absurd rfl (ha _)
        | fail => simp [Outcome.map]
        | diverge => simp [Outcome.map]
        | ub => simp [Outcome.map]

omit hM in
theorem cont_mono {n : Nat} {s : LoopSt σ V} {x : Outcome Text} (k : Nat) (h : cont M a toks n s = some x) : cont M a toks (n + k) s = some x := by
  unfold cont at h ⊢
  cases hr : readNext M toks s with
  | inl s' => rw [hr] at h; exact Token.loopRun_mono h
  | inr t => rw [hr] at h; exact h

theorem cont_each (hneg : ∀ r ws bs k v x, a.apply r ws bs k v = .ok x → x.1 < 0) (ws : List (Text × Text)) (hone : ∀ w ∈ ws, M.dead (M.blank (M.word M.init w.1)) = true)
    {q : Nat} {b o : Text} {v : V} {s : LoopSt σ V} (hs : AtBlank M q b v o s) (ht : toks.drop q = tokensOf b ws) (t : Text) :
    (∃ n, cont M a toks n s = some (.ok t)) ↔ ∃ out, t = o ++ b ++ out ∧ Each M a v ws out := by
  induction ws generalizing q b o v s with
  | nil =>
    constructor
    · rintro ⟨n, hn⟩
      rw [cont_end hM hs ht] at hn
      cases hn
      exact ⟨[], by simp, .done⟩
    · rintro ⟨out, rfl, h⟩
      cases h
      exact ⟨0, by rw [cont_end hM hs ht]; simp⟩
  | cons x ws ih =>
    obtain ⟨w, b'⟩ := x
    have ht2 : toks.drop (q + 1) = .word w :: tokensOf b' ws := (getElem_of_drop (ht.trans (rfl : _ = Tok.blank b :: .word w :: tokensOf b' ws))).2
    have ht3 : toks.drop (q + 1 + 1) = tokensOf b' ws := (getElem_of_drop ht2).2
    constructor
    · rintro ⟨n, hn⟩
      have hn := cont_mono 1 hn
      obtain ⟨s1, hs1, e1⟩ := cont_blank (a := a) hM hs ht
      rw [e1] at hn
      obtain ⟨k, h1, h2⟩ := cont_word hM hneg hs1 (hone (w, b') (by simp)) ht2
      have hn := cont_mono k hn
      cases ha : act M a w b' v with
      | ok y =>
        obtain ⟨o', v'⟩ := y
        obtain ⟨s2, hs2, e2⟩ := h1 o' v' ha
        rw [e2] at hn
        obtain ⟨out, h3, h4⟩ := (ih (fun w hw => hone w (by simp [hw])) hs2 ht3).1 ⟨n, hn⟩
        exact ⟨o' ++ b' ++ out, by rw [h3]; simp, .step ha h4⟩
      | fail => exact absurd hn (h2 (by simp [ha]) n t)
      | diverge => exact absurd hn (h2 (by simp [ha]) n t)
      | ub => exact absurd hn (h2 (by simp [ha]) n t)
    · rintro ⟨out, rfl, h⟩
      cases h with
      | @step _ v' _ _ o' out' _ ha h =>
        obtain ⟨s1, hs1, e1⟩ := cont_blank (a := a) hM hs ht
        obtain ⟨k, h1, _⟩ := cont_word hM hneg hs1 (hone (w, b') (by simp)) ht2
        obtain ⟨s2, hs2, e2⟩ := h1 o' v' ha
        obtain ⟨n, hn⟩ := (ih (fun w hw => hone w (by simp [hw])) hs2 ht3 ).2 ⟨out', by simp, h⟩
        exact ⟨n + k + 1, by rw [e1, e2, hn]⟩

/-- The main loop ends normally just with what should be written. -/
theorem run_each (hneg : ∀ r ws bs k v x, a.apply r ws bs k v = .ok x → x.1 < 0) (b : Text) (ws : List (Text × Text))
    (hone : ∀ w ∈ ws, M.dead (M.blank (M.word M.init w.1)) = true) (v : V) (t : Text) :
    (∃ n, loopRun M a (tokensOf b ws) n (loopInit M v) = some (.ok t)) ↔ ∃ out, t = b ++ out ∧ Each M a v ws out := by
  have hs : AtBlank M 0 b v [] (loopInit M v) := ⟨rfl, rfl, .inl rfl, rfl, rfl, rfl, rfl, rfl, rfl⟩
  have h := cont_each (toks := tokensOf b ws) hM hneg ws hone hs rfl t
  rw [List.nil_append] at h
  rw [← h]
  constructor
  · rintro ⟨n, hn⟩
    cases n with
    | zero => cases hn
    | succ n => rw [loopRun_alive (by exact hM.initAlive)] at hn; exact ⟨n, hn⟩
  · rintro ⟨n, hn⟩
    exact ⟨n + 1, by rw [loopRun_alive (by exact hM.initAlive)]; exact hn⟩

end Verif.Postchunk
