import Verif.Glob.Props
/-!
# C90: a pattern is found in a lexical form if its tags are there, one after the other
-/
namespace Verif.Glob
open Verif.Transfer Verif.Parts
open Verif.Regex (tagText)

theorem mem_one {p : Char → Bool} {s t : Text} : t ∈ one p s ↔ ∃ x, s = x :: t ∧ p x = true := by
  cases s with
  | nil => simp [one]
  | cons x s =>
    simp only [one]
    by_cases h : p x = true
    · rw [if_pos h]
      constructor
      · intro ht; rw [List.mem_singleton.1 ht]; exact ⟨x, rfl, h⟩
      · rintro ⟨y, hy, _⟩; cases hy; simp
    · rw [if_neg h]
      constructor
      · intro ht; cases ht
      · rintro ⟨y, hy, hp⟩; cases hy; exact absurd hp h

/-- Repetitions. -/
inductive Steps (f : Text → List Text) : Text → Text → Prop where
  | one {s t : Text} : t ∈ f s → Steps f s t
  | more {s u t : Text} : u ∈ f s → Steps f u t → Steps f s t

theorem mem_iter {f : Text → List Text} (hf : ∀ s, ∀ t ∈ f s, t.length < s.length) : ∀ (k : Nat) {s t : Text}, s.length ≤ k → (t ∈ iter f k s ↔ Steps f s t) := by
  intro k
  induction k with
  | zero =>
    intro s t hk
    simp only [iter, List.not_mem_nil, false_iff]
    have no : ∀ u, u ∉ f s := fun u hu => by have := hf s u hu; omega
    rintro (h | ⟨h, _⟩) <;> exact no _ h
  | succ k ih =>
    intro s t hk
    simp only [iter, List.mem_flatMap, List.mem_append, List.mem_singleton]
    constructor
    · rintro ⟨u, hu, h | rfl⟩
      · exact .more hu ((ih (by have := hf s u hu; omega)).1 h)
      · exact .one hu
    · rintro (h | ⟨h, h'⟩)
      · exact ⟨t, h, Or.inr rfl⟩
      · exact ⟨_, h, Or.inl ((ih (by have := hf s _ h; omega)).2 h')⟩

theorem one_short {p : Char → Bool} (s : Text) : ∀ t ∈ one p s, t.length < s.length := fun t h => by
  obtain ⟨x, rfl, _⟩ := mem_one.1 h; simp

theorem steps_one {p : Char → Bool} {s t : Text} : Steps (one p) s t ↔ ∃ a, a ≠ [] ∧ (∀ c ∈ a, p c = true) ∧ s = a ++ t := by
  constructor
  · intro h
    induction h with
    | one h =>
      obtain ⟨x, rfl, hx⟩ := mem_one.1 h
      exact ⟨[x], by simp, by simpa using hx, rfl⟩
    | more h _ ih =>
      obtain ⟨x, rfl, hx⟩ := mem_one.1 h
      obtain ⟨a, _, h2, rfl⟩ := ih
      exact ⟨x :: a, by simp, by simpa [hx] using h2, rfl⟩
  · rintro ⟨a, h1, h2, rfl⟩
    induction a with
    | nil => exact absurd rfl h1
    | cons x a ih =>
      have hx : a ++ t ∈ one p (x :: a ++ t) := mem_one.2 ⟨x, rfl, h2 x (by simp)⟩
      by_cases ha : a = []
      · subst ha; exact .one hx
      · exact .more hx (ih ha fun c hc => h2 c (by simp [hc]))

/-- One tag of the text. -/
def anyTag : PRe := .grp (.seq [.chr '<', .plus (.nset ['>']), .chr '>'])

theorem mem_anyTag {n : Nat} {s t : Text} : t ∈ anyTag.run n s ↔ ∃ a, a ≠ [] ∧ '>' ∉ a ∧ s = '<' :: a ++ '>' :: t := by
  simp only [anyTag, PRe.run, runSeq, List.mem_flatMap, List.mem_singleton, mem_one, decide_eq_true_eq]
  constructor
  · rintro ⟨u, ⟨x, rfl, rfl⟩, v, hv, w, ⟨y, rfl, rfl⟩, rfl⟩
    obtain ⟨a, h1, h2, rfl⟩ := steps_one.1 ((mem_iter one_short _ (Nat.le_refl _)).1 hv)
    refine ⟨a, h1, fun h => ?_, rfl⟩
    simpa using h2 _ h
  · rintro ⟨a, h1, h2, rfl⟩
    refine ⟨a ++ '>' :: t, ⟨'<', rfl, rfl⟩, '>' :: t, (mem_iter one_short _ (Nat.le_refl _)).2 (steps_one.2 ⟨a, h1, fun c hc => ?_, rfl⟩), t, ⟨'>', rfl, rfl⟩, rfl⟩
    have : c ≠ '>' := fun h => h2 (h ▸ hc)
    simpa using this

theorem anyTag_short {n : Nat} (s : Text) : ∀ t ∈ anyTag.run n s, t.length < s.length := fun t h => by
  obtain ⟨a, _, _, rfl⟩ := mem_anyTag.1 h
  simp; omega

theorem steps_anyTag {n : Nat} {s t : Text} : Steps (anyTag.run n) s t ↔ ∃ us, us ≠ [] ∧ (∀ u ∈ us, u ≠ [] ∧ '>' ∉ u) ∧ s = tagText us ++ t := by
  constructor
  · intro h
    induction h with
    | one h =>
      obtain ⟨a, h1, h2, rfl⟩ := mem_anyTag.1 h
      exact ⟨[a], by simp, by simp [h1, h2], by simp [tagText]⟩
    | more h _ ih =>
      obtain ⟨a, h1, h2, rfl⟩ := mem_anyTag.1 h
      obtain ⟨us, _, h3, rfl⟩ := ih
      exact ⟨a :: us, by simp, by simpa [h1, h2] using h3, by simp [tagText]⟩
  · rintro ⟨us, h1, h2, rfl⟩
    induction us with
    | nil => exact absurd rfl h1
    | cons u us ih =>
      have hx : tagText us ++ t ∈ anyTag.run n (tagText (u :: us) ++ t) := mem_anyTag.2 ⟨u, (h2 u (by simp)).1, (h2 u (by simp)).2, by simp [tagText]⟩
      by_cases ha : us = []
      · subst ha; exact .one (by simpa [tagText] using hx)
      · exact .more hx (ih ha fun c hc => h2 c (by simp [hc]))

theorem mem_runSeq_append {n : Nat} : ∀ {a b : List PRe} {s t : Text}, t ∈ runSeq n (a ++ b) s ↔ ∃ u, u ∈ runSeq n a s ∧ t ∈ runSeq n b u
  | [], b, s, t => by simp [runSeq]
  | r :: a, b, s, t => by
    simp only [List.cons_append, runSeq, List.mem_flatMap, mem_runSeq_append (a := a)]
    constructor
    · rintro ⟨v, h1, u, h2, h3⟩; exact ⟨u, ⟨v, h1, h2⟩, h3⟩
    · rintro ⟨u, ⟨v, h1, h2⟩, h3⟩; exact ⟨v, h1, u, h2, h3⟩

theorem mem_chars {n : Nat} : ∀ {w s t : Text}, t ∈ runSeq n (w.map .chr) s ↔ s = w ++ t
  | [], s, t => by simp [runSeq, eq_comm]
  | c :: w, s, t => by
    simp only [List.map_cons, runSeq, List.mem_flatMap, PRe.run, mem_one, decide_eq_true_eq, mem_chars (w := w)]
    constructor
    · rintro ⟨u, ⟨x, rfl, rfl⟩, rfl⟩; rfl
    · rintro rfl; exact ⟨w ++ t, ⟨c, rfl, rfl⟩, rfl⟩

/-- What an item fits, exactly. -/
inductive Raw : List Item → List Text → Prop where
  | nil : Raw [] []
  | tag {t : Text} {is : List Item} {us : List Text} : Raw is us → Raw (.tag t :: is) (t :: us)
  | star {vs : List Text} {is : List Item} {us : List Text} : vs ≠ [] → (∀ u ∈ vs, u ≠ [] ∧ '>' ∉ u) → Raw is us → Raw (.star :: is) (vs ++ us)

theorem mem_glob {n : Nat} : ∀ {is : List Item} {s t : Text}, t ∈ runSeq n (is.flatMap Item.re) s ↔ ∃ us, Raw is us ∧ s = tagText us ++ t
  | [], s, t => by
    simp only [List.flatMap_nil, runSeq, List.mem_singleton]
    constructor
    · rintro rfl; exact ⟨[], .nil, rfl⟩
    · rintro ⟨us, h, rfl⟩; cases h; rfl
  | i :: is, s, t => by
    rw [List.flatMap_cons, mem_runSeq_append]
    cases i with
    | tag w =>
      have : Item.re (.tag w) = ('<' :: w ++ ['>']).map .chr := by simp [Item.re]
      simp only [this, mem_chars, mem_glob (is := is)]
      constructor
      · rintro ⟨u, rfl, us, h, rfl⟩
        exact ⟨w :: us, .tag h, by simp [tagText]⟩
      · rintro ⟨us, h, rfl⟩
        cases h with
        | tag h => exact ⟨_, by simp [tagText], _, h, rfl⟩
    | star =>
      have hs : ∀ u, u ∈ runSeq n (Item.re .star) s ↔ Steps (anyTag.run n) s u := fun u => by
        have : Item.re .star = [.plus anyTag] := rfl
        rw [this]
        simp only [runSeq, PRe.run, List.mem_flatMap, List.mem_singleton]
        rw [← mem_iter anyTag_short s.length (Nat.le_refl _)]
        constructor
        · rintro ⟨v, h, rfl⟩; exact h
        · intro h; exact ⟨u, h, rfl⟩
      simp only [hs, steps_anyTag, mem_glob (is := is)]
      constructor
      · rintro ⟨u, ⟨vs, h1, h2, rfl⟩, us, h, rfl⟩
        exact ⟨vs ++ us, .star h1 h2 h, by simp [tagText]⟩
      · rintro ⟨us, h, rfl⟩
        cases h with
        | star h1 h2 h => exact ⟨_, ⟨_, h1, h2, by simp [tagText]; rfl⟩, _, h, by simp [tagText]⟩

/-- Something is found if and only if the expression fits somewhere. -/
theorem find_some {r : PRe} {n : Nat} (hr : ∀ s, ∀ t ∈ r.run n s, t.length < s.length) : ∀ (s : Text) (i : Nat),
    (∃ a b, findFrom r n i s = some (a, b) ∧ a < b ∧ i ≤ a ∧ a < i + s.length) ∨ (findFrom r n i s = none ∧ ∀ p u, s = p ++ u → r.run n u = [])
  | [], i => by
    have h0 : r.run n [] = [] := List.eq_nil_iff_forall_not_mem.2 fun t ht => absurd (hr [] t ht) (by simp)
    right
    constructor
    · simp [findFrom, h0]
    · intro p u h
      obtain ⟨rfl, rfl⟩ := List.append_eq_nil_iff.1 h.symm
      exact h0
  | x :: s, i => by
    cases h : r.run n (x :: s) with
    | cons t ts =>
      have := hr (x :: s) t (by rw [h]; simp)
      left
      refine ⟨i, i + ((x :: s).length - t.length), by simp [findFrom, h], by omega, Nat.le_refl _, by simp⟩
    | nil =>
      rcases find_some hr s (i + 1) with ⟨a, b, h1, h2, h3, h4⟩ | ⟨h1, h2⟩
      · left
        refine ⟨a, b, by simp [findFrom, h, h1], h2, by omega, by simp; omega⟩
      · right
        refine ⟨by simp [findFrom, h, h1], fun p u hp => ?_⟩
        cases p with
        | nil =>
          rw [List.nil_append] at hp
          rw [← hp]; exact h
        | cons y p =>
          simp only [List.cons_append, List.cons.injEq] at hp
          exact h2 p u hp.2

theorem matchText_iff {r : PRe} {s : Text} (hr : ∀ n s, ∀ t ∈ r.run n s, t.length < s.length) :
    r.toRe.matchText s ≠ [] ↔ ∃ p u t, s = p ++ u ∧ t ∈ r.run s.length u := by
  rcases find_some (hr s.length) s 0 with ⟨a, b, h1, h2, h3, h4⟩ | ⟨h1, h2⟩
  · have hm : r.toRe.matchText s = (s.drop a).take (b - a) := by simp [Re.matchText, PRe.toRe, h1]
    constructor
    · intro _
      by_cases hex : ∃ p u t, s = p ++ u ∧ t ∈ r.run s.length u
      · exact hex
      · exfalso
        have none_ : ∀ (v : Text) (i : Nat), v <:+ s → findFrom r s.length i v = none := by
          intro v
          induction v with
          | nil =>
            intro i ⟨p, hp⟩
            have : r.run s.length [] = [] := List.eq_nil_iff_forall_not_mem.2 fun t ht => hex ⟨p, [], t, hp.symm, ht⟩
            simp [findFrom, this]
          | cons x v ih =>
            intro i ⟨p, hp⟩
            have : r.run s.length (x :: v) = [] := List.eq_nil_iff_forall_not_mem.2 fun t ht => hex ⟨p, _, t, hp.symm, ht⟩
            simp only [findFrom, this]
            exact ih (i + 1) ⟨p ++ [x], by simpa using hp⟩
        rw [none_ s 0 (List.suffix_refl s)] at h1
        cases h1
    · intro _
      rw [hm]
      intro he
      have hl : ((s.drop a).take (b - a)).length = 0 := by rw [he]; rfl
      rw [List.length_take, List.length_drop] at hl
      omega
  · have hm : r.toRe.matchText s = [] := by simp [Re.matchText, PRe.toRe, h1]
    rw [hm]
    constructor
    · intro h; exact absurd rfl h
    · rintro ⟨p, u, t, h, ht⟩
      rw [h2 p u h] at ht; cases ht

/-! ## Folding -/

def Item.fold (fold : Char → Char) : Item → Item
  | .tag t => .tag (t.map fold)
  | .star => .star

variable {fold : Char → Char}

theorem foldSeq_append : ∀ (a b : List PRe), foldSeq fold (a ++ b) = foldSeq fold a ++ foldSeq fold b
  | [], b => by simp [foldSeq]
  | r :: a, b => by simp [foldSeq, foldSeq_append a b]

theorem foldSeq_chars : ∀ (t : Text), foldSeq fold (t.map .chr) = (t.map fold).map .chr
  | [] => rfl
  | c :: t => by simp [foldSeq, foldRe, foldSeq_chars t]

theorem fold_glob (hf : Folds fold) (is : List Item) : foldRe fold (globRe is) = globRe (is.map (Item.fold fold)) := by
  have h1 : fold '<' = '<' := (hf.lt _).2 rfl
  have h2 : fold '>' = '>' := (hf.gt _).2 rfl
  simp only [globRe, foldRe]
  congr 1
  induction is with
  | nil => rfl
  | cons i is ih =>
    rw [List.flatMap_cons, foldSeq_append, ih, List.map_cons, List.flatMap_cons]
    congr 1
    cases i with
    | tag t => simp [Item.re, Item.fold, foldSeq, foldRe, foldSeq_append, foldSeq_chars, h1, h2]
    | star => simp [Item.re, Item.fold, foldSeq, foldRe, h1, h2]

/-! ## Alignment -/

theorem Raw.ne {is : List Item} {us : List Text} (h : Raw is us) (hn : is ≠ []) : us ≠ [] := by
  cases h with
  | nil => exact absurd rfl hn
  | tag _ => simp
  | star h1 _ _ => intro he; exact h1 (List.append_eq_nil_iff.1 he).1

theorem cut : ∀ (x : Text) {y p r : Text}, '<' ∉ x → x ++ y = p ++ '<' :: r → ∃ p', p = x ++ p' ∧ y = p' ++ '<' :: r
  | [], y, p, r, _, h => ⟨p, rfl, h⟩
  | c :: x, y, p, r, hx, h => by
    cases p with
    | nil =>
      simp only [List.cons_append, List.nil_append, List.cons.injEq] at h
      exact absurd (by simp [h.1]) hx
    | cons d p =>
      simp only [List.cons_append, List.cons.injEq] at h
      obtain ⟨p', h1, h2⟩ := cut x (fun hc => hx (by simp [hc])) h.2
      exact ⟨p', by rw [← h.1, h1]; rfl, h2⟩

theorem begins : ∀ {us ts : List Text} {t : Text}, (∀ u ∈ us, '>' ∉ u) → (∀ u ∈ ts, '>' ∉ u) → tagText ts = tagText us ++ t → ∃ tq, ts = us ++ tq
  | [], ts, t, _, _, _ => ⟨ts, rfl⟩
  | u :: us, [], t, _, _, h => by simp [tagText] at h
  | u :: us, v :: ts, t, hu, hv, h => by
    rw [tagText_cons, tagText_cons] at h
    simp only [List.cons_append, List.append_assoc, List.cons.injEq, true_and] at h
    obtain ⟨rfl, h'⟩ := split_gt (hv v (by simp)) (hu u (by simp)) h
    obtain ⟨tq, rfl⟩ := begins (fun u h => hu u (by simp [h])) (fun u h => hv u (by simp [h])) h'
    exact ⟨tq, rfl⟩

theorem at_tag : ∀ {ts : List Text} {p r : Text}, (∀ u ∈ ts, ∀ c ∈ u, c ≠ '<' ∧ c ≠ '>') → tagText ts = p ++ '<' :: r → ∃ tp tq, ts = tp ++ tq ∧ tagText tq = '<' :: r
  | [], p, r, _, h => by simp [tagText] at h
  | v :: ts, p, r, hv, h => by
    cases p with
    | nil => exact ⟨[], v :: ts, rfl, h⟩
    | cons d p =>
      rw [tagText_cons] at h
      simp only [List.cons_append, List.cons.injEq] at h
      have h2 : (v ++ ['>']) ++ tagText ts = p ++ '<' :: r := by simpa using h.2
      obtain ⟨p', rfl, h3⟩ := cut (v ++ ['>']) (fun hc => by
        rcases List.mem_append.1 hc with hc | hc
        · exact (hv v (by simp) _ hc).1 rfl
        · exact absurd (List.mem_singleton.1 hc) (by decide)) h2
      obtain ⟨tp, tq, rfl, h4⟩ := at_tag (fun u h => hv u (by simp [h])) h3
      exact ⟨v :: tp, tq, rfl, h4⟩

theorem aligned {l : Text} {ts us : List Text} {p t : Text} (hl : '<' ∉ l) (hts : ∀ u ∈ ts, ∀ c ∈ u, c ≠ '<' ∧ c ≠ '>') (hus : ∀ u ∈ us, '>' ∉ u) (hn : us ≠ [])
    (h : l ++ tagText ts = p ++ (tagText us ++ t)) : ∃ tp tq, ts = tp ++ us ++ tq := by
  obtain ⟨u, us, rfl⟩ := List.exists_cons_of_ne_nil hn
  rw [tagText_cons] at h
  simp only [List.cons_append] at h
  obtain ⟨p', rfl, h1⟩ := cut l hl h
  obtain ⟨tp, tq, rfl, h2⟩ := at_tag hts h1
  obtain ⟨tq', rfl⟩ := begins (us := u :: us) hus (fun v hv hc => (hts v (List.mem_append_right _ hv) _ hc).2 rfl) (t := t) (by rw [h2, tagText_cons]; simp)
  exact ⟨tp, tq', by simp⟩

theorem raw_tags {is : List Item} {us : List Text} (h : Raw is us) (hp : ∀ t, Item.tag t ∈ is → '>' ∉ t) : ∀ u ∈ us, '>' ∉ u := by
  induction h with
  | nil => simp
  | tag _ ih =>
    intro u hu
    rcases List.mem_cons.1 hu with rfl | hu
    · exact hp _ (by simp)
    · exact ih (fun t ht => hp t (List.mem_cons_of_mem _ ht)) u hu
  | star _ h2 _ ih =>
    intro u hu
    rcases List.mem_append.1 hu with hu | hu
    · exact (h2 u hu).2
    · exact ih (fun t ht => hp t (List.mem_cons_of_mem _ ht)) u hu

theorem raw_glob : ∀ {is : List Item} {us : List Text}, Raw (is.map (Item.fold fold)) (us.map (·.map fold)) → Glob fold is us
  | [], us, h => by
    cases us with
    | nil => exact .nil
    | cons u us => cases h
  | .tag t :: is, us, h => by
    cases us with
    | nil => cases h
    | cons u us =>
      simp only [List.map_cons, Item.fold] at h
      generalize hu : u.map fold = u' at h
      generalize ht : t.map fold = t' at h
      cases h with
      | tag h => exact .tag (by rw [hu, ht]) (raw_glob h)
  | .star :: is, us, h => by
    simp only [List.map_cons, Item.fold] at h
    generalize hu : us.map (·.map fold) = us' at h
    cases h with
    | star h1 h2 h =>
      obtain ⟨a, b, rfl, rfl, rfl⟩ := List.map_eq_append_iff.1 hu
      exact .star (fun he => h1 (by rw [he]; rfl)) (raw_glob h)

theorem glob_raw {is : List Item} {us : List Text} (h : Glob fold is us) (hu : ∀ u ∈ us, u ≠ [] ∧ '>' ∉ u.map fold) : Raw (is.map (Item.fold fold)) (us.map (·.map fold)) := by
  induction h with
  | nil => exact .nil
  | tag he _ ih =>
    simp only [List.map_cons, Item.fold, he]
    exact .tag (ih fun u h => hu u (List.mem_cons_of_mem _ h))
  | star hn _ ih =>
    simp only [List.map_cons, List.map_append, Item.fold]
    refine .star (by simpa using hn) (fun u h => ?_) (ih fun u h => hu u (List.mem_append_right _ h))
    obtain ⟨v, hv, rfl⟩ := List.mem_map.1 h
    have := hu v (List.mem_append_left _ hv)
    exact ⟨by simpa using this.1, this.2⟩

theorem map_tagText (hf : Folds fold) (ts : List Text) : (tagText ts).map fold = tagText (ts.map (·.map fold)) := by
  induction ts with
  | nil => rfl
  | cons t ts ih =>
    rw [tagText_cons, List.map_cons, tagText_cons, List.map_append, List.map_cons, List.map_cons, ih, (hf.lt _).2 rfl, (hf.gt _).2 rfl]

theorem no_map {c : Char} (hc : ∀ d, fold d = c ↔ d = c) {t : Text} (h : c ∉ t) : c ∉ t.map fold := fun hm => by
  obtain ⟨d, hd, e⟩ := List.mem_map.1 hm
  exact h (((hc d).1 e) ▸ hd)

/-- **C90**: a pattern of tags fits a lexical form if and only if some of its tags, one right after the other, are what the pattern says. -/
theorem C90_match_partial (hf : Folds fold) {is : List Item} (hp : PlainPattern is) (hn : is ≠ []) {l : Text} {ts : List Text} (h : Form l ts) :
    hit fold (globRe is) (l ++ tagText ts) = true ↔ Within fold is ts := by
  have hn' : is.map (Item.fold fold) ≠ [] := by simpa using hn
  have run_iff : ∀ n s t, t ∈ (globRe (is.map (Item.fold fold))).run n s ↔ ∃ us, Raw (is.map (Item.fold fold)) us ∧ s = tagText us ++ t := fun n s t => by
    simp only [globRe, PRe.run]; exact mem_glob
  have short : ∀ n s, ∀ t ∈ (globRe (is.map (Item.fold fold))).run n s, t.length < s.length := fun n s t ht => by
    obtain ⟨us, h1, rfl⟩ := (run_iff n s t).1 ht
    obtain ⟨u, us', rfl⟩ := List.exists_cons_of_ne_nil (h1.ne hn')
    rw [tagText_cons]; simp; omega
  have hgt : ∀ u ∈ ts, '>' ∉ u := fun u hu hc => ((h.tags u hu).2 _ hc).2 rfl
  have hlt : ∀ u ∈ ts, '<' ∉ u := fun u hu hc => ((h.tags u hu).2 _ hc).1 rfl
  simp only [hit, decide_eq_true_eq, fold_glob hf, matchText_iff short, run_iff]
  rw [List.map_append, map_tagText hf]
  constructor
  · rintro ⟨p, u, t, h1, us, h2, rfl⟩
    obtain ⟨tp, tq, h3⟩ := aligned (no_map hf.lt h.lem) (fun u hu c hc => by
      obtain ⟨v, hv, rfl⟩ := List.mem_map.1 hu
      exact ⟨fun e => no_map hf.lt (hlt v hv) (e ▸ hc), fun e => no_map hf.gt (hgt v hv) (e ▸ hc)⟩) (raw_tags h2 fun t ht => by
      obtain ⟨i, hi, e⟩ := List.mem_map.1 ht
      cases i with
      | tag w =>
        simp only [Item.fold, Item.tag.injEq] at e
        subst e
        exact no_map hf.gt fun hc => (hp w hi _ hc).2.2 rfl
      | star => cases e) (h2.ne hn') h1
    obtain ⟨a, q, rfl, h4, rfl⟩ := List.map_eq_append_iff.1 h3
    obtain ⟨tp0, us0, rfl, rfl, rfl⟩ := List.map_eq_append_iff.1 h4
    exact ⟨tp0, us0, q, rfl, raw_glob h2⟩
  · rintro ⟨tp, us, tq, rfl, hg⟩
    refine ⟨l.map fold ++ tagText (tp.map (·.map fold)), tagText (us.map (·.map fold)) ++ tagText (tq.map (·.map fold)), _, by simp [tagText], _, glob_raw hg (fun u hu => ?_), rfl⟩
    have hm : u ∈ tp ++ us ++ tq := List.mem_append_left _ (List.mem_append_right _ hu)
    exact ⟨(h.tags u hm).1, no_map hf.gt (hgt u hm)⟩

end Verif.Glob
