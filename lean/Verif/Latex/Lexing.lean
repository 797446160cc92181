/-
  Steps of a scanner (C86).
-/
import Verif.Latex.Model

namespace Verif.Latex

theorem hit_ne_nil {r : Rule σ} {sc s w} (h : hit r sc s = some w) : w ≠ [] := by
  simp only [hit] at h
  split at h
  · split at h
    · cases h
    · rename_i x hx; intro e; subst e; exact hx h
  · cases h

theorem mtch_prefix : ∀ (p : Pat) (s w : Text), mtch p s = some w → ∃ t, s = w ++ t := by
  intro p
  induction p with
  | nil => intro s w h; simp only [mtch, Option.some.injEq] at h; subst h; exact ⟨s, rfl⟩
  | cons i r ih =>
    intro s w h
    cases i with
    | one p =>
      cases s with
      | nil => simp [mtch] at h
      | cons c s =>
        simp only [mtch] at h
        split at h
        · obtain ⟨v, hv, rfl⟩ := Option.map_eq_some_iff.mp h
          obtain ⟨t, rfl⟩ := ih _ _ hv
          exact ⟨t, rfl⟩
        · cases h
    | many p =>
      simp only [mtch] at h
      obtain ⟨v, hv, rfl⟩ := Option.map_eq_some_iff.mp h
      obtain ⟨t, ht⟩ := ih _ _ hv
      refine ⟨t, ?_⟩
      rw [List.append_assoc, ← ht, List.takeWhile_append_dropWhile]
    | opt p =>
      cases s with
      | nil =>
        simp only [mtch] at h
        exact ih _ _ h
      | cons c s =>
        simp only [mtch] at h
        split at h
        · obtain ⟨v, hv, rfl⟩ := Option.map_eq_some_iff.mp h
          obtain ⟨t, rfl⟩ := ih _ _ hv
          exact ⟨t, rfl⟩
        · exact ih _ _ h

theorem hit_mtch {r : Rule σ} {sc s w} (h : hit r sc s = some w) :
    r.start = sc ∧ mtch r.pat s = some w := by
  simp only [hit] at h
  split at h
  · rename_i hs
    split at h
    · cases h
    · exact ⟨hs, h⟩
  · cases h

theorem best_some {rules : List (Rule σ)} {sc s w r} (h : best rules sc s = some (w, r)) :
    hit r sc s = some w := by
  induction rules with
  | nil => simp [best] at h
  | cons q qs ih =>
    simp only [best] at h
    split at h
    · rename_i v u p h1 h2
      split at h
      · simp only [Option.some.injEq, Prod.mk.injEq] at h
        obtain ⟨rfl, rfl⟩ := h; exact ih h2
      · simp only [Option.some.injEq, Prod.mk.injEq] at h
        obtain ⟨rfl, rfl⟩ := h; exact h1
    · rename_i v h1 h2
      simp only [Option.some.injEq, Prod.mk.injEq] at h
      obtain ⟨rfl, rfl⟩ := h; exact h1
    · exact ih h

theorem runLex_more (rules : List (Rule σ)) : ∀ (n : Nat) (sc : Nat) (g : σ) (s : Text),
    s.length ≤ n → runLex rules n sc g s = lex rules sc g s := by
  intro n
  induction n using Nat.strongRecOn with
  | ind n ih =>
    intro sc g s hn
    cases s with
    | nil => cases n <;> simp [lex, runLex]
    | cons c t =>
      cases n with
      | zero => simp at hn
      | succ n =>
        simp only [List.length_cons, Nat.add_le_add_iff_right] at hn
        simp only [lex, List.length_cons, runLex]
        split
        · rename_i w r hb
          have hne := hit_ne_nil (best_some hb)
          have hlen : 1 ≤ w.length := by
            cases w with
            | nil => exact absurd rfl hne
            | cons _ _ => simp
          have hd : ((c :: t).drop w.length).length ≤ t.length := by
            simp only [List.length_drop, List.length_cons]; omega
          rw [ih n (by omega) _ _ _ (by omega), ]
          by_cases ht : t.length < n
          · rw [ih t.length (by omega) _ _ _ hd]
          · have : t.length = n := by omega
            rw [this, ih n (by omega) _ _ _ (by omega)]
        · by_cases ht : t.length < n
          · rw [ih n (by omega) _ _ _ (by omega), ih t.length (by omega) _ _ _ (by omega)]
          · have : t.length = n := by omega
            rw [this]

/-- One match. -/
theorem lex_step {rules : List (Rule σ)} {sc : Nat} {w t : Text} {r : Rule σ} (g : σ)
    (h : best rules sc (w ++ t) = some (w, r)) :
    lex rules sc g (w ++ t)
      = (r.act w sc g).1 ++ lex rules (r.act w sc g).2.1 (r.act w sc g).2.2 t := by
  have hne := hit_ne_nil (best_some h)
  cases w with
  | nil => exact absurd rfl hne
  | cons c w =>
    show runLex rules (c :: (w ++ t)).length sc g (c :: (w ++ t)) = _
    simp only [List.length_cons, runLex]
    rw [show (c :: (w ++ t)) = (c :: w) ++ t from rfl, h]
    simp only [List.length_cons]
    rw [runLex_more]
    · rw [show (c :: w) ++ t = (c :: w) ++ t from rfl,
        show (w.length + 1) = (c :: w).length from rfl, List.drop_left]
    · simp only [List.cons_append, List.length_drop, List.length_cons, List.length_append]; omega

theorem lex_nil (rules : List (Rule σ)) (sc : Nat) (g : σ) : lex rules sc g [] = [] := rfl

/-! ### Rules that cannot match -/

/-- May the pattern still match a text that begins like this? -/
def compat : Pat → Text → Bool
  | [], _ => true
  | _ :: _, [] => true
  | .one p :: r, c :: u => p c && compat r u
  | .many p :: r, c :: u =>
      match (c :: u).dropWhile p with
      | [] => true
      | v => compat r v
  | .opt p :: r, c :: u => if p c = true then compat r u else compat r (c :: u)

theorem dropWhile_append_ne {p : Char → Bool} : ∀ {u t : Text}, u.dropWhile p ≠ [] →
    (u ++ t).dropWhile p = u.dropWhile p ++ t := by
  intro u t
  induction u with
  | nil => simp
  | cons c u ih =>
    by_cases hc : p c = true
    · simpa [List.dropWhile, hc] using ih
    · simp [List.dropWhile, hc]

theorem compat_of_mtch : ∀ (p : Pat) (u t w : Text), mtch p (u ++ t) = some w →
    compat p u = true := by
  intro p
  induction p with
  | nil => intros; simp [compat]
  | cons i r ih =>
    intro u t w h
    cases u with
    | nil => simp [compat]
    | cons c u =>
      cases i with
      | one p =>
        simp only [List.cons_append, mtch] at h
        split at h
        · rename_i hc
          obtain ⟨v, hv, _⟩ := Option.map_eq_some_iff.mp h
          simp only [compat, hc, Bool.true_and]
          exact ih _ _ _ hv
        · cases h
      | many p =>
        simp only [mtch] at h
        obtain ⟨v, hv, _⟩ := Option.map_eq_some_iff.mp h
        simp only [compat]
        split
        · rfl
        · rename_i hne
          rw [dropWhile_append_ne (by simpa using hne)] at hv
          exact ih _ _ _ hv
      | opt p =>
        simp only [List.cons_append, mtch] at h
        simp only [compat]
        split at h
        · rename_i hc
          obtain ⟨v, hv, _⟩ := Option.map_eq_some_iff.mp h
          rw [if_pos hc]; exact ih _ _ _ hv
        · rename_i hc
          rw [if_neg hc]; exact ih (c :: u) _ _ h

/-- The rules that may match a text that begins with `u`. -/
def cands (rules : List (Rule σ)) (sc : Nat) (u : Text) : List (Rule σ) :=
  rules.filter (fun q => decide (q.start = sc) && compat q.pat u)

theorem best_skip {q : Rule σ} {rules sc s} (h : hit q sc s = none) :
    best (q :: rules) sc s = best rules sc s := by
  simp only [best, h]

theorem best_cands (rules : List (Rule σ)) (sc : Nat) (u t : Text) :
    best rules sc (u ++ t) = best (cands rules sc u) sc (u ++ t) := by
  induction rules with
  | nil => rfl
  | cons q qs ih =>
    by_cases hq : (decide (q.start = sc) && compat q.pat u) = true
    · have : cands (q :: qs) sc u = q :: cands qs sc u := by
        simp only [cands, List.filter, hq]
      rw [this]; simp only [best, ih]
    · have : cands (q :: qs) sc u = cands qs sc u := by
        simp only [cands, List.filter, Bool.not_eq_true _ ▸ hq]
      rw [this, ← ih]
      apply best_skip
      cases h : hit q sc (u ++ t) with
      | none => rfl
      | some w =>
        obtain ⟨h1, h2⟩ := hit_mtch h
        exact absurd (by simp [h1, compat_of_mtch _ _ _ _ h2]) hq

/-- The rule that wins: it beats those before it and is not beaten by those
    behind it. -/
theorem best_at {r : Rule σ} {sc : Nat} {s w : Text} : ∀ {before after : List (Rule σ)},
    hit r sc s = some w →
    (∀ q ∈ before, ∀ v, hit q sc s = some v → v.length < w.length) →
    (∀ q ∈ after, ∀ v, hit q sc s = some v → v.length ≤ w.length) →
    best (before ++ r :: after) sc s = some (w, r) := by
  intro before after hr hb ha
  induction before with
  | nil =>
    simp only [List.nil_append, best, hr]
    split
    · rename_i v u q h1 h2
      injection h1 with h1; subst h1
      have := best_some h2
      have hmem : q ∈ after := by
        clear ha hb
        induction after with
        | nil => simp [best] at h2
        | cons a l ih =>
          simp only [best] at h2
          split at h2
          · split at h2
            · rename_i h3 _
              injection h2 with h2; injection h2 with h2 h4; subst h2; subst h4
              exact List.mem_cons_of_mem _ (ih h3)
            · injection h2 with h2; injection h2 with h2 h4; subst h2; subst h4
              exact List.mem_cons_self
          · injection h2 with h2; injection h2 with h2 h4; subst h2; subst h4
            exact List.mem_cons_self
          · exact List.mem_cons_of_mem _ (ih h2)
      rw [if_neg (by have := ha q hmem u this; omega)]
    · rename_i v h1 h2
      injection h1 with h1; subst h1; rfl
    · rename_i h1; cases h1
  | cons q l ih =>
    have ih' := ih (fun q hq => hb q (List.mem_cons_of_mem _ hq))
    simp only [List.cons_append, best, ih']
    split
    · rename_i v u p h1 h2
      injection h2 with h2; injection h2 with h2 h3; subst h2; subst h3
      rw [if_pos (hb q List.mem_cons_self v h1)]
    · rename_i h2; cases h2
    · rfl

/-! ### Matches decided by a known beginning -/

/-- What the pattern matches, if the known beginning decides it. -/
def known : Pat → Text → Option (Option Text)
  | [], _ => some (some [])
  | .one _ :: _, [] => none
  | .one p :: r, c :: u =>
      if p c = true then (known r u).map (fun o => o.map (fun w => c :: w)) else some none
  | .many p :: r, u =>
      match u.dropWhile p with
      | [] => none
      | v => (known r v).map (fun o => o.map (fun w => u.takeWhile p ++ w))
  | .opt _ :: _, [] => none
  | .opt p :: r, c :: u =>
      if p c = true then (known r u).map (fun o => o.map (fun w => c :: w)) else known r (c :: u)

theorem takeWhile_append_ne {p : Char → Bool} : ∀ {u t : Text}, u.dropWhile p ≠ [] →
    (u ++ t).takeWhile p = u.takeWhile p := by
  intro u t
  induction u with
  | nil => simp
  | cons c u ih =>
    by_cases hc : p c = true
    · simpa [List.dropWhile, List.takeWhile, hc] using ih
    · simp [List.takeWhile, hc]

theorem mtch_known : ∀ (p : Pat) (u t : Text) (o : Option Text), known p u = some o →
    mtch p (u ++ t) = o := by
  intro p
  induction p with
  | nil => intro u t o h; simpa [known, mtch] using h
  | cons i r ih =>
    intro u t o h
    cases i with
    | one p =>
      cases u with
      | nil => simp [known] at h
      | cons c u =>
        simp only [known] at h
        simp only [List.cons_append, mtch]
        split at h
        · rename_i hc
          obtain ⟨v, hv, rfl⟩ := Option.map_eq_some_iff.mp h
          rw [if_pos hc, ih _ _ _ hv]
        · rename_i hc
          rw [if_neg hc]; simpa using h
    | many p =>
      simp only [known] at h
      split at h
      · cases h
      · rename_i hne
        obtain ⟨v, hv, rfl⟩ := Option.map_eq_some_iff.mp h
        have hne' : u.dropWhile p ≠ [] := by simpa using hne
        simp only [mtch]
        rw [dropWhile_append_ne hne', takeWhile_append_ne hne', ih _ _ _ hv]
    | opt p =>
      cases u with
      | nil => simp [known] at h
      | cons c u =>
        simp only [known] at h
        simp only [List.cons_append, mtch]
        split at h
        · rename_i hc
          obtain ⟨v, hv, rfl⟩ := Option.map_eq_some_iff.mp h
          rw [if_pos hc, ih _ _ _ hv]
        · rename_i hc
          rw [if_neg hc]; exact ih (c :: u) _ _ h

/-- The winner, if the known beginning decides it. -/
def bestK : List (Rule σ) → Nat → Text → Option (Option (Text × Rule σ))
  | [], _, _ => some none
  | r :: rs, sc, u =>
      if r.start = sc then
        match known r.pat u, bestK rs sc u with
        | some (some (c :: w)), some (some (v, q)) =>
            if (c :: w).length < v.length then some (some (v, q)) else some (some (c :: w, r))
        | some (some (c :: w)), some none => some (some (c :: w, r))
        | some (some []), x => x
        | some none, x => x
        | _, _ => none
      else bestK rs sc u

theorem best_known : ∀ (rules : List (Rule σ)) (sc : Nat) (u t : Text) (o),
    bestK rules sc u = some o → best rules sc (u ++ t) = o := by
  intro rules
  induction rules with
  | nil => intro sc u t o h; simpa [bestK, best] using h
  | cons r rs ih =>
    intro sc u t o h
    simp only [bestK] at h
    split at h
    · rename_i hs
      split at h
      · rename_i c w v q h1 h2
        simp only [best, hit, if_pos hs, mtch_known _ _ _ _ h1, ih _ _ _ _ h2]
        split at h
        · rename_i hl
          simp only [Option.some.injEq] at h; rw [if_pos hl, h]
        · rename_i hl
          simp only [Option.some.injEq] at h; rw [if_neg hl, h]
      · rename_i c w h1 h2
        simp only [Option.some.injEq] at h
        simp only [best, hit, if_pos hs, mtch_known _ _ _ _ h1, ih _ _ _ _ h2, h]
      · rename_i h1
        simp only [best, hit, if_pos hs, mtch_known _ _ _ _ h1, ih _ _ _ _ h]
      · rename_i h1
        simp only [best, hit, if_pos hs, mtch_known _ _ _ _ h1, ih _ _ _ _ h]
      · cases h
    · rename_i hs
      simp only [best, hit, if_neg hs, ih _ _ _ _ h]

/-- One step decided by a known beginning: what is taken, what is written,
    and the state behind it. -/
def stepK (rules : List (Rule σ)) (sc : Nat) (g : σ) (u : Text) : Option (Text × Text × Nat × σ) :=
  match bestK rules sc u with
  | some (some (w, r)) => some (w, r.act w sc g)
  | _ => none

theorem lex_stepK {rules : List (Rule σ)} {sc : Nat} {g : σ} {u out : Text} {sc' : Nat} {g' : σ}
    (h : stepK rules sc g u = some (u, out, sc', g')) (t : Text) :
    lex rules sc g (u ++ t) = out ++ lex rules sc' g' t := by
  simp only [stepK] at h
  split at h
  · rename_i w r hb
    simp only [Option.some.injEq, Prod.mk.injEq] at h
    obtain ⟨rfl, h⟩ := h
    rw [lex_step g (best_known _ _ _ t _ hb), h]
  · cases h

end Verif.Latex
