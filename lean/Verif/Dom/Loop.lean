import Verif.Dom.Sim
import Verif.Transfer.Loop
/-! # The main loop with two interpreters that do the same -/
namespace Verif.Dom
open Verif.Transfer

variable {σ V' V : Type} {R : V' → V → Prop}

/-- What `applyRule` gives: the same words to consume and the same text, and objects that correspond. -/
def ApplyR (R : V' → V → Prop) (p : Int × Text × V') (q : Int × Text × V) : Prop := p.1 = q.1 ∧ p.2.1 = q.2.1 ∧ R p.2.2 q.2.2

/-- Two interpreters that do the same. -/
structure ActionsSim (R : V' → V → Prop) (a' : Actions V') (a : Actions V) : Prop where
  dflt : a'.dflt = a.dflt
  apply : ∀ r ws bs k v' v, R v' v → Rel (ApplyR R) (a'.apply r ws bs k v') (a.apply r ws bs k v)

/-- The states of the loop correspond. -/
def LoopR (R : V' → V → Prop) (s' : LoopSt σ V') (s : LoopSt σ V) : Prop :=
  ∃ v', s' = ⟨s.ms, s.tmpword, s.tmpblank, s.last, s.prev, s.rule, s.lastLword, s.banned, s.pos, s.hi, v', s.out⟩ ∧ R v' s.vars

theorem handleDead_sim {m : Matcher σ} {a' : Actions V'} {a : Actions V} (A : ActionsSim R a' a) (toks : List Tok) {s' : LoopSt σ V'} {s : LoopSt σ V}
    (h : LoopR R s' s) : Rel (LoopR R) (handleDead m a' toks s') (handleDead m a toks s) := by
  obtain ⟨v', rfl, hv⟩ := h
  obtain ⟨ms, tmpword, tmpblank, last, prev, rule, lastLword, banned, pos, hi, v, out⟩ := s
  simp only at hv
  simp only [handleDead]
  cases rule with
  | some r =>
    refine (A.apply r tmpword tmpblank lastLword v' v hv).map ?_
    rintro ⟨n, o, w'⟩ ⟨n2, o2, w⟩ ⟨h1, h2, h3⟩
    simp only at h1 h2 h3
    subst h1 h2
    simp only
    by_cases hn : n < 0
    · rw [if_pos hn, if_pos hn]; exact ⟨w', rfl, h3⟩
    · rw [if_neg hn, if_neg hn]
      by_cases hn2 : n > 0
      · rw [if_pos hn2, if_pos hn2]; exact ⟨w', rfl, h3⟩
      · rw [if_neg hn2, if_neg hn2]; exact ⟨w', rfl, h3⟩
  | none =>
    cases tmpword with
    | cons w ws =>
      simp only [A.dflt]
      cases a.dflt w with
      | ok o => exact ⟨v', rfl, hv⟩
      | _ => trivial
    | nil => cases tmpblank <;> exact ⟨v', rfl, hv⟩

/-- The next state, or what has been written. -/
def StepR (R : V' → V → Prop) : LoopSt σ V' ⊕ Text → LoopSt σ V ⊕ Text → Prop
  | .inl s', .inl s => LoopR R s' s
  | .inr t', .inr t => t' = t
  | _, _ => False

theorem readNext_sim {m : Matcher σ} (toks : List Tok) {s' : LoopSt σ V'} {s : LoopSt σ V} (h : LoopR R s' s) :
    StepR R (readNext m toks s') (readNext m toks s) := by
  obtain ⟨v', rfl, hv⟩ := h
  obtain ⟨ms, tmpword, tmpblank, last, prev, rule, lastLword, banned, pos, hi, v, out⟩ := s
  simp only at hv
  simp only [readNext]
  cases m.classify ms banned <;> cases (toks[pos]?).getD (.eof []) with
  | word w => exact ⟨v', rfl, hv⟩
  | blank b => exact ⟨v', rfl, hv⟩
  | eof e =>
    simp only
    by_cases h1 : tmpword ≠ []
    · rw [if_pos h1, if_pos h1]; exact ⟨v', rfl, hv⟩
    · rw [if_neg h1, if_neg h1]; rfl

/-- The loop ends alike. -/
theorem loopRun_sim {m : Matcher σ} {a' : Actions V'} {a : Actions V} (A : ActionsSim R a' a) (toks : List Tok) : ∀ (n : Nat) {s' : LoopSt σ V'} {s : LoopSt σ V},
    LoopR R s' s → loopRun m a' toks n s' = loopRun m a toks n s
  | 0, _, _, _ => rfl
  | n + 1, s', s, h => by
    have step : Rel (StepR R) (loopStep m a' toks s') (loopStep m a toks s) := by
      simp only [loopStep]
      have hms : s'.ms = s.ms := by obtain ⟨v', rfl, _⟩ := h; rfl
      rw [hms]
      by_cases hd : m.dead s.ms = true
      · rw [if_pos hd, if_pos hd]
        exact (handleDead_sim A toks h).map fun x y hxy => readNext_sim toks hxy
      · rw [if_neg hd, if_neg hd]
        exact readNext_sim toks h
    simp only [loopRun]
    revert step
    cases loopStep m a' toks s' <;> cases loopStep m a toks s <;> intro step <;> first | exact step.elim | rfl | skip
    rename_i x y
    cases x <;> cases y <;> first | exact step.elim | skip
    · exact loopRun_sim A toks n step
    · rw [show _ = _ from step]

theorem loopInit_sim (m : Matcher σ) {v' : V'} {v : V} (h : R v' v) : LoopR R (loopInit m v') (loopInit m v) := ⟨v', rfl, h⟩

end Verif.Dom
