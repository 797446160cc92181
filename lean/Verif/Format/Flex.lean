import Verif.Format.Utf8
/-!
# The lexers that flex generates

`deformat.xsl` and `reformat.xsl` write flex specifications.  flex itself is not part of the repository: the model of the
generated lexer is its documented behaviour, on bytes: at each point the rule with the longest match is taken, of several
with the same length the first, and a byte that no rule matches is copied to the output.
-/
namespace Verif.Format

/-- Regular expressions over bytes. -/
inductive Re where
  | none
  | eps
  | cls (p : UInt8 → Bool)
  | seq (a b : Re)
  | alt (a b : Re)
  | star (a : Re)

/-- The strings a regular expression stands for. -/
inductive Re.Matches : Re → Bytes → Prop where
  | eps : Matches .eps []
  | cls {p b} : p b = true → Matches (.cls p) [b]
  | seq {a b s t} : Matches a s → Matches b t → Matches (.seq a b) (s ++ t)
  | altL {a b s} : Matches a s → Matches (.alt a b) s
  | altR {a b s} : Matches b s → Matches (.alt a b) s
  | star0 {a} : Matches (.star a) []
  | star1 {a s t} : Matches a s → Matches (.star a) t → Matches (.star a) (s ++ t)

/-- Does it match the empty string? -/
def Re.nullable : Re → Bool
  | .none => false
  | .eps => true
  | .cls _ => false
  | .seq a b => a.nullable && b.nullable
  | .alt a b => a.nullable || b.nullable
  | .star _ => true

def Re.mkSeq : Re → Re → Re
  | .none, _ => .none
  | .eps, b => b
  | a, b => .seq a b

def Re.mkAlt : Re → Re → Re
  | .none, b => b
  | a, .none => a
  | a, b => .alt a b

/-- What may follow the byte `x`. -/
def Re.deriv (x : UInt8) : Re → Re
  | .none => .none
  | .eps => .none
  | .cls p => if p x then .eps else .none
  | .seq a b => if a.nullable then mkAlt (mkSeq (a.deriv x) b) (b.deriv x) else mkSeq (a.deriv x) b
  | .alt a b => mkAlt (a.deriv x) (b.deriv x)
  | .star a => mkSeq (a.deriv x) (.star a)

/-- The length of the longest prefix that matches; `best` if there is none longer than `n`. -/
def Re.longestFrom : Re → Bytes → Nat → Nat → Nat
  | .none, _, _, best => best
  | _, [], _, best => best
  | r, b :: s, n, best =>
    let r' := r.deriv b
    r'.longestFrom s (n + 1) (if r'.nullable then n + 1 else best)

/-- The length of the longest non-empty match at the beginning of the input, 0 if there is none. -/
def Re.longest (r : Re) (s : Bytes) : Nat := r.longestFrom s 0 0

/-- The rule flex takes, with the length of its match: the longest, and of those the first. -/
def pick {α : Type} (rules : List (Re × α)) (s : Bytes) : Option (Nat × α) :=
  match rules with
  | [] => none
  | (r, a) :: rest =>
    match pick rest s with
    | none => if r.longest s = 0 then none else some (r.longest s, a)
    | some (n, b) => if r.longest s < n then some (n, b) else some (r.longest s, a)

/-! ## The matcher is right -/

theorem Re.nullable_iff (r : Re) : r.nullable = true ↔ r.Matches [] := by
  induction r with
  | none => simp [nullable]; rintro ⟨⟩
  | eps => simp [nullable, Matches.eps]
  | cls p => simp [nullable]; intro h; cases h
  | seq a b iha ihb =>
    simp only [nullable, Bool.and_eq_true, iha, ihb]
    constructor
    · rintro ⟨h1, h2⟩; exact .seq h1 h2
    · generalize hs : ([] : Bytes) = s
      intro h
      cases h with
      | seq h1 h2 =>
        have := List.append_eq_nil_iff.1 hs.symm
        rw [this.1] at h1; rw [this.2] at h2
        rw [this.1, this.2]
        exact ⟨h1, h2⟩
  | alt a b iha ihb =>
    simp only [nullable, Bool.or_eq_true, iha, ihb]
    constructor
    · rintro (h | h)
      · exact .altL h
      · exact .altR h
    · intro h
      cases h with
      | altL h => exact .inl h
      | altR h => exact .inr h
  | star a _ => simp [nullable, Matches.star0]

theorem Re.matches_mkSeq (a b : Re) (s : Bytes) : (mkSeq a b).Matches s ↔ (Re.seq a b).Matches s := by
  cases a <;> simp only [mkSeq]
  · constructor
    · rintro ⟨⟩
    · rintro ⟨⟩; rename_i h _; cases h
  · constructor
    · intro h; exact Matches.seq (s := []) .eps h
    · intro h
      cases h with
      | seq h1 h2 => cases h1; exact h2

theorem Re.matches_none (s : Bytes) : ¬ Re.none.Matches s := by rintro ⟨⟩

theorem Re.matches_alt (a b : Re) (s : Bytes) : (Re.alt a b).Matches s ↔ a.Matches s ∨ b.Matches s := by
  constructor
  · intro h
    cases h with
    | altL h => exact .inl h
    | altR h => exact .inr h
  · rintro (h | h)
    · exact .altL h
    · exact .altR h

theorem Re.matches_mkAlt (a b : Re) (s : Bytes) : (mkAlt a b).Matches s ↔ a.Matches s ∨ b.Matches s := by
  cases a <;> cases b <;> simp only [mkAlt, matches_alt, matches_none, false_or, or_false]

theorem Re.matches_star_cons {a : Re} {x : UInt8} {s : Bytes} (h : (Re.star a).Matches (x :: s)) :
    ∃ u v, s = u ++ v ∧ a.Matches (x :: u) ∧ (Re.star a).Matches v := by
  generalize hr : Re.star a = r at h
  generalize ht : x :: s = t at h
  induction h with
  | eps => cases hr
  | cls _ => cases hr
  | seq _ _ => cases hr
  | altL _ => cases hr
  | altR _ => cases hr
  | star0 => cases ht
  | @star1 a' p q h1 h2 _ ih =>
    cases hr
    cases p with
    | nil => exact ih rfl (by simpa using ht)
    | cons y p =>
      simp only [List.cons_append, List.cons.injEq] at ht
      obtain ⟨rfl, rfl⟩ := ht
      exact ⟨p, q, rfl, h1, h2⟩

/-- The derivative stands for the rest of the strings that begin with `x`. -/
theorem Re.matches_deriv (r : Re) (x : UInt8) (s : Bytes) : (r.deriv x).Matches s ↔ r.Matches (x :: s) := by
  induction r generalizing s with
  | none => simp [deriv, matches_none]
  | eps =>
    simp only [deriv, matches_none, false_iff]
    intro h; cases h
  | cls p =>
    simp only [deriv]
    by_cases hp : p x = true
    · simp only [hp, if_true]
      constructor
      · intro h; cases h; exact .cls hp
      · intro h; cases h; exact .eps
    · simp only [hp]
      constructor
      · intro h; exact absurd h (matches_none _)
      · intro h; cases h with | cls h => exact absurd h hp
  | seq a b iha ihb =>
    have key : (mkSeq (a.deriv x) b).Matches s ↔ ∃ u v, s = u ++ v ∧ a.Matches (x :: u) ∧ b.Matches v := by
      rw [matches_mkSeq]
      constructor
      · intro h
        cases h with
        | seq h1 h2 => exact ⟨_, _, rfl, (iha _).1 h1, h2⟩
      · rintro ⟨u, v, rfl, h1, h2⟩
        exact .seq ((iha _).2 h1) h2
    have key2 : (Re.seq a b).Matches (x :: s) ↔
        (∃ u v, s = u ++ v ∧ a.Matches (x :: u) ∧ b.Matches v) ∨ (a.Matches [] ∧ b.Matches (x :: s)) := by
      constructor
      · generalize ht : x :: s = t
        intro h
        cases h with
        | @seq _ _ p q h1 h2 =>
          cases p with
          | nil => exact .inr ⟨h1, by simpa using h2⟩
          | cons y p =>
            simp only [List.cons_append, List.cons.injEq] at ht
            obtain ⟨rfl, rfl⟩ := ht
            exact .inl ⟨p, q, rfl, h1, h2⟩
      · rintro (⟨u, v, rfl, h1, h2⟩ | ⟨h1, h2⟩)
        · exact .seq h1 h2
        · exact .seq (s := []) h1 h2
    simp only [deriv]
    rw [key2]
    by_cases hn : a.nullable = true
    · rw [if_pos hn, matches_mkAlt, key, ihb]
      simp [(nullable_iff a).1 hn]
    · rw [if_neg hn, key]
      have h0 : ¬ a.Matches [] := fun h => hn ((nullable_iff a).2 h)
      simp [h0]
  | alt a b iha ihb => rw [deriv, matches_mkAlt, iha, ihb, matches_alt]
  | star a iha =>
    rw [deriv, matches_mkSeq]
    constructor
    · intro h
      cases h with
      | seq h1 h2 => exact .star1 ((iha _).1 h1) h2
    · intro h
      obtain ⟨u, v, rfl, h1, h2⟩ := matches_star_cons h
      exact .seq ((iha _).2 h1) h2

theorem Re.longestFrom_spec (r : Re) (s : Bytes) (n best : Nat) :
    (r.longestFrom s n best = best ∧ ∀ k, 0 < k → k ≤ s.length → ¬ r.Matches (s.take k)) ∨
    (∃ k, 0 < k ∧ k ≤ s.length ∧ r.longestFrom s n best = n + k ∧ r.Matches (s.take k) ∧
      ∀ j, k < j → j ≤ s.length → ¬ r.Matches (s.take j)) := by
  induction s generalizing r n best with
  | nil =>
    left
    refine ⟨by cases r <;> simp [longestFrom], ?_⟩
    intro k hk hk2; simp at hk2; omega
  | cons b s ih =>
    have hlf : r.longestFrom (b :: s) n best =
        (r.deriv b).longestFrom s (n + 1) (if (r.deriv b).nullable then n + 1 else best) := by
      cases r <;> simp [longestFrom]
      · simp [deriv, nullable]
        cases s <;> simp [longestFrom]
    have hstep : ∀ k, r.Matches ((b :: s).take (k + 1)) ↔ (r.deriv b).Matches (s.take k) := by
      intro k; rw [matches_deriv]; rfl
    rw [hlf]
    rcases ih (r.deriv b) (n + 1) (if (r.deriv b).nullable then n + 1 else best) with ⟨h1, h2⟩ | ⟨k, hk, hk2, h1, h2, h3⟩
    · rw [h1]
      by_cases hn : (r.deriv b).nullable = true
      · right
        refine ⟨1, by omega, by simp, by simp [hn], ?_, ?_⟩
        · rw [hstep 0]; simpa using (nullable_iff _).1 hn
        · intro j hj hj2
          obtain ⟨j, rfl⟩ : ∃ i, j = i + 1 := ⟨j - 1, by omega⟩
          rw [hstep j]
          exact h2 j (by omega) (by simpa using hj2)
      · left
        refine ⟨by simp [hn], ?_⟩
        intro j hj hj2
        obtain ⟨j, rfl⟩ : ∃ i, j = i + 1 := ⟨j - 1, by omega⟩
        rw [hstep j]
        cases j with
        | zero => intro h; exact hn ((nullable_iff _).2 (by simpa using h))
        | succ j => exact h2 (j + 1) (by omega) (by simpa using hj2)
    · right
      refine ⟨k + 1, by omega, by simpa using hk2, by rw [h1]; omega, (hstep k).2 h2, ?_⟩
      intro j hj hj2
      obtain ⟨j, rfl⟩ : ∃ i, j = i + 1 := ⟨j - 1, by omega⟩
      rw [hstep j]
      exact h3 j (by omega) (by simpa using hj2)

/-- `longest` is the length of the longest non-empty match, or 0 when there is none. -/
theorem Re.longest_spec (r : Re) (s : Bytes) :
    (r.longest s = 0 ∧ ∀ k, 0 < k → k ≤ s.length → ¬ r.Matches (s.take k)) ∨
    (0 < r.longest s ∧ r.longest s ≤ s.length ∧ r.Matches (s.take (r.longest s)) ∧
      ∀ j, r.longest s < j → j ≤ s.length → ¬ r.Matches (s.take j)) := by
  rcases longestFrom_spec r s 0 0 with h | ⟨k, hk, hk2, h1, h2, h3⟩
  · exact .inl h
  · right
    have : r.longest s = k := by unfold longest; omega
    rw [this]
    exact ⟨hk, hk2, h2, h3⟩

/-- What flex promises about the rule it takes: it matches a non-empty prefix, no rule matches a longer one, and no rule
before it matches one as long. -/
structure Taken {α : Type} (rules : List (Re × α)) (s : Bytes) (n : Nat) (a : α) : Prop where
  pos : 0 < n
  le : n ≤ s.length
  rule : ∃ before r after, rules = before ++ (r, a) :: after ∧ r.Matches (s.take n) ∧
    (∀ q ∈ before, ¬ q.1.Matches (s.take n))
  longest : ∀ q ∈ rules, ∀ j, n < j → j ≤ s.length → ¬ q.1.Matches (s.take j)

theorem pick_none {α : Type} (rules : List (Re × α)) (s : Bytes) (h : pick rules s = none) :
    ∀ q ∈ rules, ∀ j, 0 < j → j ≤ s.length → ¬ q.1.Matches (s.take j) := by
  induction rules with
  | nil => simp
  | cons p rest ih =>
    obtain ⟨r, a⟩ := p
    simp only [pick] at h
    cases hr : pick rest s with
    | some x =>
      rw [hr] at h
      obtain ⟨n, b⟩ := x
      simp only at h
      split at h <;> simp at h
    | none =>
      rw [hr] at h
      simp only at h
      split at h
      · rename_i h0
        intro q hq
        rcases List.mem_cons.1 hq with rfl | hq
        · rcases r.longest_spec s with h1 | h1
          · exact h1.2
          · omega
        · exact ih hr q hq
      · simp at h

/-- **The choice of the rule is flex's**: if `pick` answers, its answer is the longest and then the first. -/
theorem pick_some {α : Type} (rules : List (Re × α)) (s : Bytes) (n : Nat) (a : α) (h : pick rules s = some (n, a)) :
    Taken rules s n a := by
  induction rules generalizing n a with
  | nil => simp [pick] at h
  | cons p rest ih =>
    obtain ⟨r, a0⟩ := p
    simp only [pick] at h
    cases hr : pick rest s with
    | none =>
      rw [hr] at h
      simp only at h
      split at h
      · simp at h
      · rename_i h0
        simp only [Option.some.injEq, Prod.mk.injEq] at h
        obtain ⟨rfl, rfl⟩ := h
        rcases r.longest_spec s with h1 | ⟨h1, h2, h3, h4⟩
        · omega
        · refine ⟨h1, h2, ⟨[], r, rest, rfl, h3, by simp⟩, ?_⟩
          intro q hq j hj hj2
          rcases List.mem_cons.1 hq with rfl | hq
          · exact h4 j hj hj2
          · exact pick_none rest s hr q hq j (by omega) hj2
    | some x =>
      rw [hr] at h
      obtain ⟨m, b⟩ := x
      have hm := ih m b hr
      simp only at h
      split at h
      · rename_i hlt
        simp only [Option.some.injEq, Prod.mk.injEq] at h
        obtain ⟨rfl, rfl⟩ := h
        obtain ⟨bf, r1, af, h1, h2, h3⟩ := hm.rule
        have hno : ∀ j, m ≤ j → j ≤ s.length → ¬ r.Matches (s.take j) := by
          intro j hj hj2
          rcases r.longest_spec s with h5 | h5
          · exact h5.2 j (by have := hm.pos; omega) hj2
          · exact h5.2.2.2 j (by omega) hj2
        refine ⟨hm.pos, hm.le, ⟨(r, a0) :: bf, r1, af, by simp [h1], h2, ?_⟩, ?_⟩
        · intro q hq
          rcases List.mem_cons.1 hq with rfl | hq
          · exact hno m (Nat.le_refl _) hm.le
          · exact h3 q hq
        · intro q hq j hj hj2
          rcases List.mem_cons.1 hq with rfl | hq
          · exact hno j (by omega) hj2
          · exact hm.longest q hq j hj hj2
      · rename_i hge
        simp only [Option.some.injEq, Prod.mk.injEq] at h
        obtain ⟨rfl, rfl⟩ := h
        rcases r.longest_spec s with h1 | ⟨h1, h2, h3, h4⟩
        · have := hm.pos; omega
        · refine ⟨h1, h2, ⟨[], r, rest, rfl, h3, by simp⟩, ?_⟩
          intro q hq j hj hj2
          rcases List.mem_cons.1 hq with rfl | hq
          · exact h4 j hj hj2
          · exact hm.longest q hq j (by omega) hj2

end Verif.Format
