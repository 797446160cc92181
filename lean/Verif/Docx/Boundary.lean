/-
  The boundary the program looks for (C87): `findBoundary` finds the first
  acceptable place.
-/
import Verif.Docx.Spec

namespace Verif.Docx

open Spec

/-- `c2` and `c1` are the last two characters of `u`; `c2` is U+0000 if there is only one. -/
def Ctx (u : Text) (c2 c1 : Char) : Prop := (u = [c1] ∧ c2 = '\x00') ∨ ∃ w, u = w ++ [c2, c1]

theorem suffix_one {u : Text} {c2 c1 : Char} (h : Ctx u c2 c1) (a : Char) : [a] <:+ u ↔ a = c1 := by
  rcases h with ⟨rfl, _⟩ | ⟨w, rfl⟩
  · constructor
    · rintro ⟨t, ht⟩
      have := List.append_inj' (s₁ := t) (s₂ := []) (t₁ := [a]) (t₂ := [c1]) (by rw [ht]; rfl) rfl
      simpa using this.2
    · rintro rfl
      exact List.suffix_refl _
  · constructor
    · rintro ⟨t, ht⟩
      have := List.append_inj' (s₁ := t) (s₂ := w ++ [c2]) (t₁ := [a]) (t₂ := [c1]) (by simpa using ht) rfl
      simpa using this.2
    · rintro rfl
      exact ⟨w ++ [c2], by simp⟩

theorem suffix_two {u : Text} {c2 c1 : Char} (h : Ctx u c2 c1) (a b : Char) (ha : a ≠ '\x00') :
    [a, b] <:+ u ↔ a = c2 ∧ b = c1 := by
  rcases h with ⟨rfl, rfl⟩ | ⟨w, rfl⟩
  · constructor
    · rintro ⟨t, ht⟩
      have := congrArg List.length ht
      simp at this
    · rintro ⟨h, -⟩
      exact absurd h ha
  · constructor
    · rintro ⟨t, ht⟩
      have := List.append_inj' (s₁ := t) (s₂ := w) (t₁ := [a, b]) (t₂ := [c2, c1]) ht rfl
      simpa using this.2
    · rintro ⟨rfl, rfl⟩
      exact ⟨w, rfl⟩

theorem prefix_one (b c : Char) (rest : Text) : [b] <+: c :: rest ↔ b = c := by
  simp

theorem prefix_two (x b c : Char) (rest : Text) :
    [x, b] <+: c :: rest ↔ x = c ∧ rest.head? = some b := by
  cases rest with
  | nil => simp
  | cons d r => simp [eq_comm]

/-- `Bad`, in terms of the characters around the place. -/
theorem bad_iff {al : Char → Bool} (hl : Letters al) {u : Text} {c2 c1 : Char} (h : Ctx u c2 c1)
    (cur : Char) (rest : Text) :
    Bad al u (cur :: rest) ↔
      (al c1 = true ∧ al cur = true) ∨ (al c2 = true ∧ c1 = '-' ∧ al cur = true) ∨
      (al c1 = true ∧ cur = '-' ∧ (rest = [] ∨ ∃ b, al b = true ∧ rest.head? = some b)) ∨
      (Ell c2 ∧ c1 = '\u00B7' ∧ Ell cur) ∨
      (Ell c1 ∧ cur = '\u00B7' ∧ (rest = [] ∨ ∃ b, Ell b ∧ rest.head? = some b)) := by
  have e1 : ∀ a, al a = true → a ≠ '\x00' := by
    intro a ha hc; rw [hc, hl.nul] at ha; exact absurd ha (by decide)
  have e2 : ∀ a, Ell a → a ≠ '\x00' := by
    rintro a (rfl | rfl) <;> decide
  simp only [Bad, InWord, Dangling, suffix_one h, prefix_one, prefix_two, List.cons.injEq]
  constructor
  · rintro ((⟨a, b, ha, hb, rfl, rfl⟩ | ⟨a, b, ha, hb, hs, rfl⟩ | ⟨a, b, ha, hb, rfl, rfl, hr⟩ |
      ⟨a, b, ha, hb, hs, rfl⟩ | ⟨a, b, ha, hb, rfl, rfl, hr⟩) | (⟨a, ha, rfl, rfl, rfl⟩ | ⟨a, ha, rfl, rfl, rfl⟩))
    · exact .inl ⟨ha, hb⟩
    · obtain ⟨rfl, rfl⟩ := (suffix_two h _ _ (e1 a ha)).1 hs
      exact .inr (.inl ⟨ha, rfl, hb⟩)
    · exact .inr (.inr (.inl ⟨ha, rfl, .inr ⟨b, hb, hr⟩⟩))
    · obtain ⟨rfl, rfl⟩ := (suffix_two h _ _ (e2 a ha)).1 hs
      exact .inr (.inr (.inr (.inl ⟨ha, rfl, hb⟩)))
    · exact .inr (.inr (.inr (.inr ⟨ha, rfl, .inr ⟨b, hb, hr⟩⟩)))
    · exact .inr (.inr (.inl ⟨ha, rfl, .inl rfl⟩))
    · exact .inr (.inr (.inr (.inr ⟨ha, rfl, .inl rfl⟩)))
  · rintro (⟨ha, hb⟩ | ⟨ha, rfl, hb⟩ | ⟨ha, rfl, rfl | ⟨b, hb, hr⟩⟩ | ⟨ha, rfl, hb⟩ |
      ⟨ha, rfl, rfl | ⟨b, hb, hr⟩⟩)
    · exact .inl (.inl ⟨_, _, ha, hb, rfl, rfl⟩)
    · exact .inl (.inr (.inl ⟨_, _, ha, hb, (suffix_two h _ _ (e1 _ ha)).2 ⟨rfl, rfl⟩, rfl⟩))
    · exact .inr (.inl ⟨_, ha, rfl, rfl, rfl⟩)
    · exact .inl (.inr (.inr (.inl ⟨_, _, ha, hb, rfl, rfl, hr⟩)))
    · exact .inl (.inr (.inr (.inr (.inl ⟨_, _, ha, hb, (suffix_two h _ _ (e2 _ ha)).2 ⟨rfl, rfl⟩, rfl⟩))))
    · exact .inr (.inr ⟨_, ha, rfl, rfl, rfl⟩)
    · exact .inl (.inr (.inr (.inr (.inr ⟨_, _, ha, hb, rfl, rfl, hr⟩))))

theorem isL_iff (c : Char) : isL c = true ↔ Ell c := by
  simp [isL, Ell, or_comm]

/-- The decision of one round, on truth values: letters (`a`), `l`s (`l`), hyphens (`h`) and dots (`d`)
    among `cur_2`, `cur_1` and `cur`. -/
def kk (a2 a1 a l2 l1 l h1 h d1 d : Bool) : Bool × Bool × Bool :=
  if a1 && a then (true, false, false)
  else if a2 && h1 then (a, false, false)
  else if a1 && h then (false, true, false)
  else if l2 && d1 then (l, false, false)
  else if l1 && d then (false, false, true)
  else (false, false, false)

/-- Whether the loop goes on; `an` and `ln` are about the character behind `cur`, if there is one. -/
def goes (k : Bool × Bool × Bool) (last an ln : Bool) : Bool :=
  (k.1 || k.2.1 || k.2.2) && (last || (!(k.2.1 && !an) && !(k.2.2 && !ln)))

def badB (a2 a1 a l2 l1 l h1 h d1 d last an ln : Bool) : Bool :=
  (a1 && a) || (a2 && (h1 && a)) || (a1 && (h && (last || an))) || (l2 && (d1 && l)) || (l1 && (d && (last || ln)))

theorem goes_badB : ∀ a2 a1 a l2 l1 l last an ln h1 h d1 d : Bool,
    (!(h1 && a1) && !(d1 && a1) && !(h && a) && !(d && a) && !(h1 && l1) && !(d1 && l1) && !(h && l) &&
      !(d && l) && !(h1 && d1) && !(h && d)) = true →
    goes (kk a2 a1 a l2 l1 l h1 h d1 d) last an ln = badB a2 a1 a l2 l1 l h1 h d1 d last an ln := by
  decide +kernel

theorem scan_eq (al : Char → Bool) (c2 c1 cur : Char) (rest : Text) :
    scan al c2 c1 (cur :: rest) =
      if goes (kk (al c2) (al c1) (al cur) (isL c2) (isL c1) (isL cur) (decide (c1 = '-')) (decide (cur = '-'))
        (decide (c1 = dot)) (decide (cur = dot))) rest.isEmpty (rest.head?.any al) (rest.head?.any isL)
      then 1 + scan al c1 cur rest else 0 := by
  rw [scan.eq_def]
  change _ = if goes (decision al c2 c1 cur) _ _ _ then _ else _
  simp only []
  generalize decision al c2 c1 cur = k
  obtain ⟨k1, k2, k3⟩ := k
  cases rest with
  | nil => simp [goes, scan]
  | cons d r =>
    simp only [goes, List.isEmpty_cons, List.head?_cons, Option.any_some, Bool.false_or]
    cases k1 <;> cases k2 <;> cases k3 <;> cases al d <;> cases isL d <;> simp

theorem badB_iff {al : Char → Bool} (hl : Letters al) {u : Text} {c2 c1 : Char} (h : Ctx u c2 c1)
    (cur : Char) (rest : Text) :
    Bad al u (cur :: rest) ↔
      badB (al c2) (al c1) (al cur) (isL c2) (isL c1) (isL cur) (decide (c1 = '-')) (decide (cur = '-'))
        (decide (c1 = dot)) (decide (cur = dot)) rest.isEmpty (rest.head?.any al) (rest.head?.any isL) = true := by
  rw [bad_iff hl h]
  simp only [← isL_iff]
  simp only [badB, Bool.or_eq_true, Bool.and_eq_true, decide_eq_true_eq, List.isEmpty_iff,
    Option.any_eq_true, or_assoc]
  simp only [dot, and_comm]

theorem excl {al : Char → Bool} (hl : Letters al) (c1 cur : Char) :
    (!(decide (c1 = '-') && al c1) && !(decide (c1 = dot) && al c1) && !(decide (cur = '-') && al cur) &&
      !(decide (cur = dot) && al cur) && !(decide (c1 = '-') && isL c1) && !(decide (c1 = dot) && isL c1) &&
      !(decide (cur = '-') && isL cur) && !(decide (cur = dot) && isL cur) &&
      !(decide (c1 = '-') && decide (c1 = dot)) && !(decide (cur = '-') && decide (cur = dot))) = true := by
  have hh := hl.hyphen
  have hd := hl.dot
  have one : ∀ c, (decide (c = '-') && al c) = false ∧ (decide (c = dot) && al c) = false ∧
      (decide (c = '-') && isL c) = false ∧ (decide (c = dot) && isL c) = false ∧
      (decide (c = '-') && decide (c = dot)) = false := by
    intro c
    by_cases h1 : c = '-'
    · subst h1; simp [hh, dot, isL]
    · by_cases h2 : c = dot
      · subst h2; simp [hd, dot, isL]
      · simp [h1, h2]
  obtain ⟨a1, a2, a3, a4, a5⟩ := one c1
  obtain ⟨b1, b2, b3, b4, b5⟩ := one cur
  rw [a1, a2, a3, a4, a5, b1, b2, b3, b4, b5]
  rfl

/-- One round of the loop. -/
theorem scan_cons {al : Char → Bool} (hl : Letters al) {u : Text} {c2 c1 : Char} (h : Ctx u c2 c1)
    (cur : Char) (rest : Text) :
    (Bad al u (cur :: rest) → scan al c2 c1 (cur :: rest) = 1 + scan al c1 cur rest) ∧
    (¬ Bad al u (cur :: rest) → scan al c2 c1 (cur :: rest) = 0) := by
  rw [badB_iff hl h, scan_eq, goes_badB _ _ _ _ _ _ _ _ _ _ _ _ _ (excl hl c1 cur)]
  constructor
  · intro hb; rw [if_pos hb]
  · intro hb; rw [if_neg hb]

theorem ctx_snoc {u : Text} {c2 c1 : Char} (h : Ctx u c2 c1) (cur : Char) : Ctx (u ++ [cur]) c1 cur := by
  rcases h with ⟨rfl, _⟩ | ⟨w, rfl⟩
  · exact .inr ⟨[], rfl⟩
  · exact .inr ⟨w ++ [c2], by simp⟩

/-- The loop goes over the bad places and stops at the first good one, or at the end. -/
theorem scan_spec {al : Char → Bool} (hl : Letters al) :
    ∀ (v u : Text) (c2 c1 : Char), Ctx u c2 c1 →
      scan al c2 c1 v ≤ v.length ∧
      (scan al c2 c1 v = v.length ∨
        ¬ Bad al (u ++ v.take (scan al c2 c1 v)) (v.drop (scan al c2 c1 v))) ∧
      ∀ p, p < scan al c2 c1 v → Bad al (u ++ v.take p) (v.drop p) := by
  intro v
  induction v with
  | nil => intro u c2 c1 _; simp [scan]
  | cons cur rest ih =>
    intro u c2 c1 h
    obtain ⟨hy, hn⟩ := scan_cons hl h cur rest
    by_cases hb : Bad al u (cur :: rest)
    · rw [hy hb]
      obtain ⟨i1, i2, i3⟩ := ih (u ++ [cur]) c1 cur (ctx_snoc h cur)
      rw [Nat.add_comm 1]
      refine ⟨by simpa using i1, ?_, ?_⟩
      · rcases i2 with i2 | i2
        · exact .inl (by simp [i2])
        · exact .inr (by simpa using i2)
      · intro p hp
        cases p with
        | zero => simpa using hb
        | succ p => simpa using i3 p (by omega)
    · rw [hn hb]
      exact ⟨by simp, .inr (by simpa using hb), by simp⟩

theorem ctx_at (text : Text) (b : Nat) (h0 : 0 < b) (h1 : b < text.length) :
    Ctx (text.take b) (if b - 1 = 0 then '\x00' else text.getD (b - 2) '\x00') (text.getD (b - 1) '\x00') := by
  obtain ⟨k, rfl⟩ : ∃ k, b = k + 1 := ⟨b - 1, by omega⟩
  have hk : k < text.length := by omega
  have e1 : text.getD (k + 1 - 1) '\x00' = text[k] := by
    simp [List.getD_eq_getElem?_getD, List.getElem?_eq_getElem hk]
  rw [e1, List.take_add_one, List.getElem?_eq_getElem hk]
  by_cases hz : k = 0
  · subst hz
    exact .inl ⟨by simp, by simp⟩
  · right
    obtain ⟨j, rfl⟩ : ∃ j, k = j + 1 := ⟨k - 1, by omega⟩
    have hj : j < text.length := by omega
    refine ⟨text.take j, ?_⟩
    have e2 : text.take (j + 1) = text.take j ++ [text[j]] := by
      rw [List.take_add_one, List.getElem?_eq_getElem hj]; rfl
    have e4 : text.getD (j + 1 + 1 - 2) '\x00' = text[j] := by
      simp [List.getD_eq_getElem?_getD, List.getElem?_eq_getElem hj]
    rw [e2, if_neg (by omega), e4]
    simp only [Option.toList_some, List.append_assoc, List.cons_append, List.nil_append]

/-- `findBoundary` finds the first acceptable place. -/
theorem findBoundary_spec {al : Char → Bool} (hl : Letters al) (text : Text) (b : Nat) (h0 : 0 < b)
    (h1 : b < text.length) : FirstGood al text b (findBoundary al text b) := by
  have hd : ¬ (b = 0 ∨ b ≥ text.length) := by omega
  obtain ⟨i1, i2, i3⟩ := scan_spec hl (text.drop b) (text.take b) _ _ (ctx_at text b h0 h1)
  simp only [findBoundary, if_neg hd]
  generalize scan al (if b - 1 = 0 then '\x00' else text.getD (b - 2) '\x00') (text.getD (b - 1) '\x00')
    (text.drop b) = m at *
  have tk : ∀ p, text.take b ++ (text.drop b).take p = text.take (b + p) := by
    intro p; rw [List.take_add]
  refine ⟨by omega, ?_, ?_, ?_⟩
  · simp at i1; omega
  · rcases i2 with i2 | i2
    · left; simp at i2; omega
    · right; rw [tk, List.drop_drop] at i2; exact i2
  · intro p hp hq
    have := i3 (p - b) (by omega)
    rw [tk, List.drop_drop, show b + (p - b) = p by omega] at this
    exact this

theorem firstGood_unique {al : Char → Bool} {text : Text} {b q q' : Nat} (h : FirstGood al text b q)
    (h' : FirstGood al text b q') : q = q' := by
  obtain ⟨a1, a2, a3, a4⟩ := h
  obtain ⟨b1, b2, b3, b4⟩ := h'
  rcases Nat.lt_trichotomy q q' with hlt | heq | hlt
  · rcases a3 with a3 | a3
    · omega
    · exact absurd (b4 q a1 hlt) a3
  · exact heq
  · rcases b3 with b3 | b3
    · omega
    · exact absurd (a4 q' b1 hlt) b3

theorem findBoundary_end (al : Char → Bool) (text : Text) : findBoundary al text text.length = text.length := by
  simp [findBoundary]

theorem findBoundary_zero (al : Char → Bool) (text : Text) : findBoundary al text 0 = 0 := by
  simp [findBoundary]

theorem findBoundary_ge {al : Char → Bool} (hl : Letters al) (text : Text) (b : Nat) :
    b ≤ findBoundary al text b := by
  by_cases h : 0 < b ∧ b < text.length
  · exact (findBoundary_spec hl text b h.1 h.2).1
  · have : b = 0 ∨ b ≥ text.length := by omega
    simp [findBoundary, this]

theorem findBoundary_le {al : Char → Bool} (hl : Letters al) (text : Text) (b : Nat) (hb : b ≤ text.length) :
    findBoundary al text b ≤ text.length := by
  by_cases h : 0 < b ∧ b < text.length
  · exact (findBoundary_spec hl text b h.1 h.2).2.1
  · have : b = 0 ∨ b ≥ text.length := by omega
    simp [findBoundary, this, hb]

/-- Places between `b` and the boundary found from `b` lead to the same boundary. -/
theorem findBoundary_between {al : Char → Bool} (hl : Letters al) (text : Text) (b c : Nat)
    (hbc : b ≤ c) (hb : b ≤ text.length) (hc : c ≤ findBoundary al text b) :
    findBoundary al text c = findBoundary al text b := by
  by_cases h0 : b = 0
  · subst h0
    rw [findBoundary_zero] at hc ⊢
    obtain rfl : c = 0 := by omega
    exact findBoundary_zero al text
  · by_cases h1 : b = text.length
    · subst h1
      rw [findBoundary_end] at hc ⊢
      obtain rfl : c = text.length := by omega
      exact findBoundary_end al text
    · have hs := findBoundary_spec hl text b (by omega) (by omega)
      by_cases h2 : c = text.length
      · subst h2
        rw [findBoundary_end]
        have := hs.2.1
        omega
      · have hlt : c < text.length := by have := hs.2.1; omega
        refine firstGood_unique (findBoundary_spec hl text c (by omega) hlt) ?_
        exact ⟨hc, hs.2.1, hs.2.2.1, fun p hp hq => hs.2.2.2 p (by omega) hq⟩

theorem findBoundary_mono {al : Char → Bool} (hl : Letters al) (text : Text) (b c : Nat)
    (hbc : b ≤ c) (hb : b ≤ text.length) :
    findBoundary al text b ≤ findBoundary al text c := by
  by_cases h : c ≤ findBoundary al text b
  · rw [findBoundary_between hl text b c hbc hb h]; exact Nat.le_refl _
  · have := findBoundary_ge hl text c; omega

end Verif.Docx
