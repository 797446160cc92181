import Verif.Crx.Words
/-!
# What the elements of a rule read
-/
namespace Verif.Crx
open Verif.Caps (Mark)
section
variable {upper : Nat → Bool}

/-! ## The labels of a `match` -/

theorem stepsLang_append (l : Option Lab) (A B : List StepT) (s : List Lab) :
    stepsLang l (A ++ B) s ↔ ∃ x y, s = x ++ y ∧ stepsLang l A x ∧ stepsLang (A.foldl afterStep l) B y := by
  induction A generalizing l s with
  | nil =>
    constructor
    · intro h; exact ⟨[], s, rfl, rfl, h⟩
    · rintro ⟨x, y, rfl, h1, h2⟩; rw [show x = [] from h1]; exact h2
  | cons a A ih =>
    rw [List.cons_append]
    simp only [stepsLang, List.foldl_cons]
    constructor
    · rintro ⟨x, z, rfl, h1, h2⟩
      obtain ⟨y, w, rfl, h2, h3⟩ := (ih _ _).1 h2
      exact ⟨x ++ y, w, by simp, ⟨x, y, rfl, h1, h2⟩, h3⟩
    · rintro ⟨x, w, rfl, ⟨a, b, rfl, h1, h2⟩, h3⟩
      exact ⟨a, b ++ w, by simp, h1, (ih _ _).2 ⟨b, w, rfl, h2, h3⟩⟩

/-- A loop with an input. -/
def InpLoop (l : Option Lab) : Prop := l = none ∨ ∃ a, l = some (.inp a)

theorem InpLoop.steps {l : Option Lab} (h : InpLoop l) (ss : List StepT) (hs : ∀ s ∈ ss, s.sym ≠ none) : InpLoop (ss.foldl afterStep l) := by
  induction ss generalizing l with
  | nil => exact h
  | cons s ss ih =>
    rw [List.foldl_cons]
    refine ih ?_ (fun x hx => hs x (by simp [hx]))
    have := hs s (by simp)
    cases s with
    | one a =>
      cases a with
      | inp a =>
        simp only [afterStep]
        split
        · exact h
        · exact Or.inl rfl
      | _ => exact absurd rfl this
    | plus a => cases a with
      | inp a => exact Or.inr ⟨a, rfl⟩
      | _ => exact absurd rfl this
    | star a => cases a with
      | inp a => exact Or.inr ⟨a, rfl⟩
      | _ => exact absurd rfl this

theorem capsSteps_sym (t : Text) : ∀ s ∈ capsSteps upper t, s.sym ≠ none := by
  intro s h
  obtain ⟨n, _, rfl⟩ := List.mem_map.1 h
  unfold capsStep
  split
  · simp [StepT.sym]
  · split
    · simp [StepT.sym]
    · split <;> simp [StepT.sym]

theorem globSteps_sym (t : Text) : ∀ s ∈ globSteps t, s.sym ≠ none := by
  intro s h
  obtain ⟨n, _, rfl⟩ := List.mem_map.1 h
  unfold globStep
  split <;> simp [StepT.sym]

theorem textSteps_sym (p t : Text) : ∀ s ∈ textSteps upper p t, s.sym ≠ none := by
  unfold textSteps
  split
  · exact capsSteps_sym t
  · exact globSteps_sym p

theorem tagSteps_sym (ts : List Text) : ∀ s ∈ ts.flatMap tagStep, s.sym ≠ none := by
  intro s h
  obtain ⟨t, _, h⟩ := List.mem_flatMap.1 h
  revert h
  unfold tagStep
  split
  · intro h; rw [List.mem_singleton.1 h]; simp [StepT.sym]
  · split
    · intro h; rw [List.mem_singleton.1 h]; simp [StepT.sym]
    · split
      · intro h; rw [List.mem_singleton.1 h]; simp [StepT.sym]
      · split
        · intro h; cases h
        · intro h; rw [List.mem_singleton.1 h]; simp [StepT.sym]

theorem steps_sym (m : Match) : ∀ s ∈ m.steps upper, s.sym ≠ none := by
  intro s h
  unfold Match.steps at h
  have hsl : StepT.sym slash ≠ none := by simp [slash, StepT.sym]
  simp only [List.mem_append, List.mem_cons] at h
  rcases h with h | rfl | h | rfl | h | h | rfl | h
  · exact capsSteps_sym _ s h
  · exact hsl
  · exact capsSteps_sym _ s h
  · exact hsl
  · exact textSteps_sym _ _ s h
  · exact tagSteps_sym _ s h
  · exact hsl
  · exact textSteps_sym _ _ s h

theorem word_lang (m : Match) (s : List Lab) :
    (Node.word m).lang upper s ↔ ∃ k s0, Selects m.select k ∧ s = s0 ++ [.bound, .mark k] ∧ stepsLang none (m.steps upper) s0 := by
  rw [Node.lang]
  have hl := InpLoop.steps (Or.inl rfl : InpLoop none) (m.steps upper) (steps_sym m)
  have key : ∀ k u, stepsLang ((m.steps upper).foldl afterStep none) [StepT.one .bound, StepT.one (.mark k)] u ↔ u = [.bound, .mark k] := by
    intro k u
    generalize (m.steps upper).foldl afterStep none = l at hl
    have h1 : ¬ (l = some .bound) := by rcases hl with h | ⟨a, h⟩ <;> rw [h] <;> simp
    have h2 : ¬ ((none : Option Lab) = some (.mark k)) := by simp
    simp only [stepsLang, stepLang, afterStep, if_neg h1, if_neg h2]
    constructor
    · rintro ⟨x, y, rfl, rfl, x', y', rfl, rfl, h⟩
      rw [show y' = [] from h]; rfl
    · rintro rfl; exact ⟨_, _, rfl, rfl, [.mark k], [], rfl, rfl, rfl⟩
  constructor
  · rintro ⟨k, hk, h⟩
    obtain ⟨x, y, rfl, h1, h2⟩ := (stepsLang_append _ _ _ _).1 h
    rw [key] at h2
    exact ⟨k, x, (selectMark_iff _ _).1 hk, by rw [h2], h1⟩
  · rintro ⟨k, x, hk, rfl, h⟩
    exact ⟨k, (selectMark_iff _ _).2 hk, (stepsLang_append _ _ _ _).2 ⟨x, _, rfl, h, (key k _).2 rfl⟩⟩

/-- Everything on the path is the label of a step. -/
theorem stepsLang_mem (l : Option Lab) (ss : List StepT) (s : List Lab) (hs : ∀ s ∈ ss, s.sym ≠ none) (h : stepsLang l ss s) :
    ∀ x ∈ s, ∃ t ∈ ss, ∃ a, t.sym = some a ∧ x = .inp a := by
  induction ss generalizing l s with
  | nil => rw [show s = [] from h]; intro e he; cases he
  | cons t ss ih =>
    obtain ⟨x, y, rfl, h1, h2⟩ := h
    intro e he
    rcases List.mem_append.1 he with he | he
    · refine ⟨t, by simp, ?_⟩
      have ht := hs t (by simp)
      have hone : ∀ {x : List Lab}, Lang.one x → e ∈ x → False := by
        intro x h he; rw [show x = [] from h] at he; cases he
      have hstar : ∀ {a : Lab} {x : List Lab}, Lang.star a x → e ∈ x → e = a := by
        rintro a x ⟨n, rfl⟩ he; exact (List.mem_replicate.1 he).2
      cases t with
      | one a =>
        cases a with
        | inp a =>
          simp only [stepLang] at h1
          split at h1
          · exact (hone h1 he).elim
          · rw [h1] at he
            exact ⟨a, rfl, List.mem_singleton.1 he⟩
        | _ => exact absurd rfl ht
      | plus a =>
        cases a with
        | inp a =>
          simp only [stepLang] at h1
          split at h1
          · exact (hone h1 he).elim
          · obtain ⟨u, v, rfl, rfl, h4⟩ := h1
            rcases List.mem_append.1 he with he | he
            · exact ⟨a, rfl, List.mem_singleton.1 he⟩
            · exact ⟨a, rfl, hstar h4 he⟩
        | _ => exact absurd rfl ht
      | star a =>
        cases a with
        | inp a =>
          simp only [stepLang] at h1
          obtain ⟨u, v, rfl, h3, h4⟩ := h1
          rcases List.mem_append.1 he with he | he
          · exact (hone h3 he).elim
          · exact ⟨a, rfl, hstar h4 he⟩
        | _ => exact absurd rfl ht
    · obtain ⟨s', h3, h4⟩ := ih _ _ (fun x hx => hs x (by simp [hx])) h2 e he
      exact ⟨s', by simp [h3], h4⟩

theorem clsStep_names (n : Nat) (a : Sym) (h : (capsStep upper n).sym = some a) : a ≠ nullBoundary ∧ a ≠ wordBoundary := by
  revert h
  unfold capsStep
  split
  · simp only [StepT.sym, Option.some.injEq]; rintro rfl; simp [anyChar, nullBoundary, wordBoundary]
  · split
    · simp only [StepT.sym, Option.some.injEq]; rintro rfl; simp [nullBoundary, wordBoundary]
    · split
      · simp only [StepT.sym, Option.some.injEq]; rintro rfl; simp [anyUpper, nullBoundary, wordBoundary]
      · simp only [StepT.sym, Option.some.injEq]; rintro rfl; simp [anyLower, nullBoundary, wordBoundary]

theorem globStep_names (n : Nat) (a : Sym) (h : (globStep n).sym = some a) : a ≠ nullBoundary ∧ a ≠ wordBoundary := by
  revert h
  unfold globStep
  split
  · simp only [StepT.sym, Option.some.injEq]; rintro rfl; simp [anyChar, nullBoundary, wordBoundary]
  · simp only [StepT.sym, Option.some.injEq]; rintro rfl; simp [nullBoundary, wordBoundary]

theorem steps_names (m : Match) (hn : m.Named) : ∀ s ∈ m.steps upper, ∀ a, s.sym = some a → a ≠ nullBoundary ∧ a ≠ wordBoundary := by
  intro s h a ha
  have hcaps : ∀ t, s ∈ capsSteps upper t → a ≠ nullBoundary ∧ a ≠ wordBoundary := by
    intro t h
    obtain ⟨n, _, rfl⟩ := List.mem_map.1 h
    exact clsStep_names n a ha
  have htext : ∀ p t, s ∈ textSteps upper p t → a ≠ nullBoundary ∧ a ≠ wordBoundary := by
    intro p t
    unfold textSteps
    split
    · exact hcaps t
    · intro h
      obtain ⟨n, _, rfl⟩ := List.mem_map.1 h
      exact globStep_names n a ha
  have hsl : s = slash → a ≠ nullBoundary ∧ a ≠ wordBoundary := by
    rintro rfl
    simp only [slash, StepT.sym, Option.some.injEq] at ha
    subst ha
    simp [nullBoundary, wordBoundary]
  have htag : s ∈ m.tags.flatMap tagStep → a ≠ nullBoundary ∧ a ≠ wordBoundary := by
    intro h
    obtain ⟨t, ht, h⟩ := List.mem_flatMap.1 h
    revert h
    have hat : anyTag ≠ nullBoundary ∧ anyTag ≠ wordBoundary := by simp [anyTag, nullBoundary, wordBoundary]
    unfold tagStep
    split
    · intro h; rw [List.mem_singleton.1 h] at ha; injection ha with ha; rw [← ha]; exact hat
    · split
      · intro h; rw [List.mem_singleton.1 h] at ha; injection ha with ha; rw [← ha]; exact hat
      · split
        · intro h; rw [List.mem_singleton.1 h] at ha; injection ha with ha; rw [← ha]; exact hat
        · split
          · intro h; cases h
          · intro h; rw [List.mem_singleton.1 h] at ha; injection ha with ha; rw [← ha]
            have := hn t ht
            refine ⟨fun hx => this ?_, fun hx => this ?_⟩ <;> injection hx with hx <;> rw [hx] <;> simp [internal]
  unfold Match.steps at h
  simp only [List.mem_append, List.mem_cons] at h
  rcases h with h | h | h | h | h | h | h | h
  · exact hcaps _ h
  · exact hsl h
  · exact hcaps _ h
  · exact hsl h
  · exact htext _ _ h
  · exact htag h
  · exact hsl h
  · exact htext _ _ h

/-! ## The shape of the labels of a rule -/

def markOfLab : Lab → Option Mark
  | .mark k => some k
  | _ => none

/-- The marks on a path. -/
def marks (s : List Lab) : List Mark := s.filterMap markOfLab

theorem marks_append (s u : List Lab) : marks (s ++ u) = marks s ++ marks u := List.filterMap_append ..

/-- The labels of a word. -/
def Inner (l : Lab) : Prop := ∃ a, l = .inp a ∧ a ≠ nullBoundary ∧ a ≠ wordBoundary

/-- Beginnings of a section and words. -/
inductive Parts : List Lab → Prop where
  | nil : Parts []
  | start {s : List Lab} : Parts s → Parts (.inp nullBoundary :: s)
  | word {w s : List Lab} {k : Mark} : w ≠ [] → (∀ l ∈ w, Inner l) → Parts s → Parts (w ++ .bound :: .mark k :: s)

theorem Parts.append {s u : List Lab} (h : Parts s) (h' : Parts u) : Parts (s ++ u) := by
  induction h with
  | nil => exact h'
  | start _ ih => exact .start ih
  | word h1 h2 _ ih =>
    rw [List.append_assoc]
    exact .word h1 h2 ih

theorem steps_nonempty (l : Option Lab) (ss : List StepT) (s : List Lab) (h : stepsLang l ss s) (a : Lab) (A B : List StepT) (hss : ss = A ++ StepT.one a :: B)
    (hl : A.foldl afterStep l ≠ some a) : s ≠ [] := by
  subst hss
  obtain ⟨x, y, rfl, _, h2⟩ := (stepsLang_append _ _ _ _).1 h
  simp only [stepsLang, stepLang, if_neg hl] at h2
  obtain ⟨u, v, rfl, rfl, _⟩ := h2
  simp

theorem word_parts (m : Match) (hn : m.Named) (s : List Lab) (h : (Node.word m).lang upper s) : Parts s := by
  obtain ⟨k, s0, _, rfl, h1⟩ := (word_lang m s).1 h
  clear h
  have h := h1
  clear h1
  refine .word ?_ ?_ .nil
  · exact steps_nonempty none _ s0 h (.inp (.chr '/'.toNat)) (capsSteps upper m.srcsurf) _ rfl (CharLoop.caps _ (Or.inl rfl)).ne_slash
  · intro l hl
    obtain ⟨t, h1, a, h2, h3⟩ := stepsLang_mem _ _ _ (steps_sym m) h l hl
    exact ⟨a, h3, steps_names m hn t h1 a h2⟩

theorem pow_parts {L : Lang} (h : ∀ s, L s → Parts s) (n : Nat) (s : List Lab) (hs : Lang.pow L n s) : Parts s := by
  induction n generalizing s with
  | zero => rw [show s = [] from hs]; exact .nil
  | succ n ih =>
    obtain ⟨x, y, rfl, h1, h2⟩ := hs
    exact (h x h1).append (ih y h2)

mutual
theorem node_parts : (c : Node) → c.Each Match.Named → (s : List Lab) → c.lang upper s → Parts s
  | .word m, hn, s, h => word_parts m (by rwa [Node.Each] at hn) s h
  | .start, _, s, h => by rw [Node.lang] at h; rw [h]; exact .start .nil
  | .or cs, hn, s, h => by
    rw [Node.lang] at h
    rw [Node.Each] at hn
    rcases h with ⟨_, rfl⟩ | h
    · exact .nil
    · exact any_parts cs hn s h
  | .rep lo hi cs, hn, s, h => by
    rw [Node.lang] at h
    rw [Node.Each] at hn
    obtain ⟨n, _, _, h⟩ := h
    exact pow_parts (seq_parts cs hn) n s h

theorem any_parts : (cs : List Node) → AllEach Match.Named cs → (s : List Lab) → anyLang upper cs s → Parts s
  | [], _, _, h => by rw [anyLang] at h; exact h.elim
  | c :: cs, hn, s, h => by
    rw [anyLang] at h
    rw [AllEach] at hn
    rcases h with h | h
    · exact node_parts c hn.1 s h
    · exact any_parts cs hn.2 s h

theorem seq_parts : (cs : List Node) → AllEach Match.Named cs → (s : List Lab) → seqLang upper cs s → Parts s
  | [], _, s, h => by rw [seqLang] at h; rw [show s = [] from h]; exact .nil
  | c :: cs, hn, s, h => by
    rw [seqLang] at h
    rw [AllEach] at hn
    obtain ⟨x, y, rfl, h1, h2⟩ := h
    exact (node_parts c hn.1 x h1).append (seq_parts cs hn.2 y h2)
end

/-! ## Events -/

def Seen.events (w : Seen) : List Rd := w.body ++ [.wb]

def Ev.events : Ev → List Rd
  | .start => [.nb]
  | .word w => w.events

theorem can_bound {e : Rd} (he : ∀ t ∈ internal, e ≠ .tok (.tag t)) : Can upper e wordBoundary ↔ e = .wb := by
  cases e with
  | sep => simp [Can, wordBoundary]
  | wb => simp [Can]
  | nb => simp [Can, wordBoundary, nullBoundary]
  | tok t =>
    cases t with
    | chr c =>
      simp only [Can, reduceCtorEq, iff_false]
      split
      · simp [wordBoundary, anyTag]
      · rintro (h | h | h)
        · cases h
        · simp [wordBoundary, anyChar] at h
        · revert h; split <;> simp [wordBoundary, anyUpper, anyLower]
    | tag t =>
      simp only [Can, reduceCtorEq, iff_false]
      rintro (h | h)
      · injection h with h
        exact he t (by rw [← h]; simp [internal]) rfl
      · simp [wordBoundary, anyTag] at h

theorem can_null {e : Rd} (he : ∀ t ∈ internal, e ≠ .tok (.tag t)) : Can upper e nullBoundary ↔ e = .nb := by
  cases e with
  | sep => simp [Can, nullBoundary]
  | nb => simp [Can]
  | wb => simp [Can, wordBoundary, nullBoundary]
  | tok t =>
    cases t with
    | chr c =>
      simp only [Can, reduceCtorEq, iff_false]
      split
      · simp [nullBoundary, anyTag]
      · rintro (h | h | h)
        · cases h
        · simp [nullBoundary, anyChar] at h
        · revert h; split <;> simp [nullBoundary, anyUpper, anyLower]
    | tag t =>
      simp only [Can, reduceCtorEq, iff_false]
      rintro (h | h)
      · injection h with h
        exact he t (by rw [← h]; simp [internal]) rfl
      · simp [nullBoundary, anyTag] at h

theorem Clean.event {x : List Rd} (h : Clean x) {e : Rd} (he : e ∈ x) : ∀ t ∈ internal, e ≠ .tok (.tag t) := by
  rintro t ht rfl; exact h.tags t ht he

theorem readsL_silent {a : Lab} {s : List Lab} {x : List Rd} (ha : a.input = none) : ReadsL upper (a :: s) x ↔ ReadsL upper s x := by
  constructor
  · intro h
    cases h with
    | silent _ h => exact h
    | read h1 _ _ => rw [ha] at h1; cases h1
  · exact .silent ha

theorem readsL_cons {a : Lab} {b : Sym} {s : List Lab} {x : List Rd} (ha : a.input = some b) :
    ReadsL upper (a :: s) x ↔ ∃ e y, x = e :: y ∧ Can upper e b ∧ ReadsL upper s y := by
  constructor
  · intro h
    cases h with
    | silent h1 _ => rw [ha] at h1; cases h1
    | read h1 h2 h3 =>
      rw [ha] at h1
      injection h1 with h1
      subst h1
      exact ⟨_, _, rfl, h2, h3⟩
  · rintro ⟨e, y, rfl, h1, h2⟩; exact .read ha h1 h2

theorem readsL_tail {s : List Lab} {k : Mark} {x : List Rd} (hx : Clean x) (h : ReadsL upper (s ++ [.bound, .mark k]) x) :
    ∃ y, x = y ++ [.wb] ∧ ReadsL upper s y := by
  obtain ⟨y, z, rfl, h1, h2⟩ := h.split
  refine ⟨y, ?_, h1⟩
  obtain ⟨e, w, rfl, h3, h4⟩ := (readsL_cons (b := wordBoundary) rfl).1 h2
  rw [readsL_silent rfl, readsL_nil] at h4
  rw [can_bound (hx.event (by simp))] at h3
  rw [h3, h4]

theorem marks_inner {s : List Lab} (h : ∀ l ∈ s, ∃ a, l = .inp a) : marks s = [] := by
  unfold marks
  rw [List.filterMap_eq_nil_iff]
  intro l hl
  obtain ⟨a, rfl⟩ := h l hl
  rfl

theorem word_reads (m : Match) (hp : m.Plain) (hag : m.Agree) (s : List Lab) (x : List Rd) (hs : (Node.word m).lang upper s) (hr : ReadsL upper s x) (hx : Clean x) :
    ∃ es, x = es.flatMap Ev.events ∧ (Node.word m).Fits upper es (marks s) := by
  obtain ⟨k, s0, hk, rfl, h⟩ := (word_lang m s).1 hs
  obtain ⟨y, rfl, hy⟩ := readsL_tail hx hr
  obtain ⟨w, rfl, hw⟩ := (match_words m hp hag hx.left).1 ((evLang_iff none _ (steps_sym m) y).1 ⟨s0, h, hy⟩)
  refine ⟨[.word w], by simp [Ev.events, Seen.events], ?_⟩
  rw [Node.Fits]
  refine ⟨w, k, rfl, ?_, hw, hk⟩
  rw [marks_append, marks_inner]
  · rfl
  · intro l hl
    obtain ⟨t, _, a, _, h3⟩ := stepsLang_mem _ _ _ (steps_sym m) h l hl
    exact ⟨a, h3⟩

theorem word_fits (m : Match) (hp : m.Plain) (hag : m.Agree) (es : List Ev) (ms : List Mark) (hf : (Node.word m).Fits upper es ms) (hx : Clean (es.flatMap Ev.events)) :
    ∃ s, (Node.word m).lang upper s ∧ ReadsL upper s (es.flatMap Ev.events) ∧ marks s = ms := by
  rw [Node.Fits] at hf
  obtain ⟨w, k, rfl, rfl, hw, hk⟩ := hf
  simp only [List.flatMap_cons, List.flatMap_nil, List.append_nil, Ev.events, Seen.events] at hx ⊢
  obtain ⟨s0, h1, h2⟩ := (evLang_iff none _ (steps_sym m) _).2 ((match_words (upper := upper) m hp hag hx.left).2 ⟨w, rfl, hw⟩)
  refine ⟨s0 ++ [.bound, .mark k], (word_lang m _).2 ⟨k, s0, hk, rfl, h1⟩, h2.append ((readsL_cons (b := wordBoundary) rfl).2 ⟨_, _, rfl, rfl, .silent rfl .nil⟩), ?_⟩
  rw [marks_append, marks_inner]
  · rfl
  · intro l hl
    obtain ⟨t, _, a, _, h3⟩ := stepsLang_mem _ _ _ (steps_sym m) h1 l hl
    exact ⟨a, h3⟩

/-! ## Elements -/

def Sound (upper : Nat → Bool) (L : Lang) (P : List Ev → List Mark → Prop) : Prop :=
  ∀ s x, L s → ReadsL upper s x → Clean x → ∃ es, x = es.flatMap Ev.events ∧ P es (marks s)

def Complete (upper : Nat → Bool) (L : Lang) (P : List Ev → List Mark → Prop) : Prop :=
  ∀ es ms, P es ms → Clean (es.flatMap Ev.events) → ∃ s, L s ∧ ReadsL upper s (es.flatMap Ev.events) ∧ marks s = ms

theorem sound_cat {L K : Lang} {P Q R : List Ev → List Mark → Prop} (hL : Sound upper L P) (hK : Sound upper K Q)
    (hR : ∀ es ms, R es ms ↔ ∃ e1 e2 m1 m2, es = e1 ++ e2 ∧ ms = m1 ++ m2 ∧ P e1 m1 ∧ Q e2 m2) : Sound upper (Lang.cat L K) R := by
  rintro _ x ⟨a, b, rfl, h1, h2⟩ hr hx
  obtain ⟨y, z, rfl, h3, h4⟩ := hr.split
  obtain ⟨e1, rfl, h5⟩ := hL a y h1 h3 hx.left
  obtain ⟨e2, rfl, h6⟩ := hK b z h2 h4 hx.right
  exact ⟨e1 ++ e2, by simp, (hR _ _).2 ⟨e1, e2, _, _, rfl, marks_append .., h5, h6⟩⟩

theorem complete_cat {L K : Lang} {P Q R : List Ev → List Mark → Prop} (hL : Complete upper L P) (hK : Complete upper K Q)
    (hR : ∀ es ms, R es ms ↔ ∃ e1 e2 m1 m2, es = e1 ++ e2 ∧ ms = m1 ++ m2 ∧ P e1 m1 ∧ Q e2 m2) : Complete upper (Lang.cat L K) R := by
  intro es ms h hx
  obtain ⟨e1, e2, m1, m2, rfl, rfl, h1, h2⟩ := (hR _ _).1 h
  rw [List.flatMap_append] at hx ⊢
  obtain ⟨a, h3, h4, rfl⟩ := hL e1 m1 h1 hx.left
  obtain ⟨b, h5, h6, rfl⟩ := hK e2 m2 h2 hx.right
  exact ⟨a ++ b, ⟨a, b, rfl, h3, h5⟩, h4.append h6, marks_append ..⟩

theorem sound_one {P : List Ev → List Mark → Prop} (hP : P [] []) : Sound upper Lang.one P := by
  intro s x h hr _
  rw [show s = [] from h] at hr ⊢
  rw [readsL_nil] at hr
  exact ⟨[], hr, hP⟩

theorem complete_one {P : List Ev → List Mark → Prop} (hP : ∀ es ms, P es ms → es = [] ∧ ms = []) : Complete upper Lang.one P := by
  intro es ms h _
  obtain ⟨rfl, rfl⟩ := hP es ms h
  exact ⟨[], rfl, .nil, rfl⟩

theorem sound_pow {L : Lang} {P : List Ev → List Mark → Prop} (h : Sound upper L P) (n : Nat) : Sound upper (Lang.pow L n) (Times P n) := by
  induction n with
  | zero => exact sound_one ⟨rfl, rfl⟩
  | succ n ih => exact sound_cat h ih (fun es ms => by rw [Times])

theorem complete_pow {L : Lang} {P : List Ev → List Mark → Prop} (h : Complete upper L P) (n : Nat) : Complete upper (Lang.pow L n) (Times P n) := by
  induction n with
  | zero => exact complete_one (fun es ms h => by rwa [Times] at h)
  | succ n ih => exact complete_cat h ih (fun es ms => by rw [Times])

mutual
theorem node_sound : (c : Node) → c.Each Match.Plain → c.Ok → Sound upper (c.lang upper) (c.Fits upper)
  | .word m, hp, hk => fun s x => word_reads m (by rwa [Node.Each] at hp) (by rw [Node.Ok] at hk; exact ⟨hk.1, hk.2.1⟩) s x
  | .start, _, _ => fun s x hs hr hx => by
    rw [Node.lang] at hs
    subst hs
    obtain ⟨e, rfl, h⟩ := readsL_inp.1 hr
    rw [can_null (hx.event (by simp))] at h
    subst h
    exact ⟨[.start], rfl, by rw [Node.Fits]; exact ⟨rfl, rfl⟩⟩
  | .or cs, hp, hk => fun s x hs hr hx => by
    rw [Node.lang] at hs
    rw [Node.Each] at hp
    rw [Node.Ok] at hk
    rcases hs with ⟨rfl, rfl⟩ | hs
    · rw [readsL_nil] at hr
      exact ⟨[], hr, by rw [Node.Fits]; exact Or.inl ⟨rfl, rfl, rfl⟩⟩
    · obtain ⟨es, h1, h2⟩ := any_sound cs hp hk s x hs hr hx
      exact ⟨es, h1, by rw [Node.Fits]; exact Or.inr h2⟩
  | .rep lo hi cs, hp, hk => fun s x hs hr hx => by
    rw [Node.lang] at hs
    rw [Node.Each] at hp
    rw [Node.Ok] at hk
    obtain ⟨n, h1, h2, h3⟩ := hs
    obtain ⟨es, h4, h5⟩ := sound_pow (seq_sound cs hp hk.2.2) n s x h3 hr hx
    exact ⟨es, h4, by rw [Node.Fits]; exact ⟨n, h1, h2, h5⟩⟩

theorem any_sound : (cs : List Node) → AllEach Match.Plain cs → AllOk cs → Sound upper (anyLang upper cs) (AnyFits upper cs)
  | [], _, _ => fun s x hs => by rw [anyLang] at hs; exact hs.elim
  | c :: cs, hp, hk => fun s x hs hr hx => by
    rw [anyLang] at hs
    rw [AllEach] at hp
    rw [AllOk] at hk
    rcases hs with hs | hs
    · obtain ⟨es, h1, h2⟩ := node_sound c hp.1 hk.1 s x hs hr hx
      exact ⟨es, h1, by rw [AnyFits]; exact Or.inl h2⟩
    · obtain ⟨es, h1, h2⟩ := any_sound cs hp.2 hk.2 s x hs hr hx
      exact ⟨es, h1, by rw [AnyFits]; exact Or.inr h2⟩

theorem seq_sound : (cs : List Node) → AllEach Match.Plain cs → AllOk cs → Sound upper (seqLang upper cs) (SeqFits upper cs)
  | [], _, _ => by rw [seqLang]; exact sound_one (by rw [SeqFits]; exact ⟨rfl, rfl⟩)
  | c :: cs, hp, hk => by
    rw [AllEach] at hp
    rw [AllOk] at hk
    rw [seqLang]
    exact sound_cat (node_sound c hp.1 hk.1) (seq_sound cs hp.2 hk.2) (fun es ms => by rw [SeqFits])
end

mutual
theorem node_complete : (c : Node) → c.Each Match.Plain → c.Ok → Complete upper (c.lang upper) (c.Fits upper)
  | .word m, hp, hk => fun es ms => word_fits m (by rwa [Node.Each] at hp) (by rw [Node.Ok] at hk; exact ⟨hk.1, hk.2.1⟩) es ms
  | .start, _, _ => fun es ms hf _ => by
    rw [Node.Fits] at hf
    obtain ⟨rfl, rfl⟩ := hf
    exact ⟨[.inp nullBoundary], by rw [Node.lang], readsL_inp.2 ⟨_, rfl, rfl⟩, rfl⟩
  | .or cs, hp, hk => fun es ms hf hx => by
    rw [Node.Fits] at hf
    rw [Node.Each] at hp
    rw [Node.Ok] at hk
    rcases hf with ⟨rfl, rfl, rfl⟩ | hf
    · exact ⟨[], by rw [Node.lang]; exact Or.inl ⟨rfl, rfl⟩, .nil, rfl⟩
    · obtain ⟨s, h1, h2, h3⟩ := any_complete cs hp hk es ms hf hx
      exact ⟨s, by rw [Node.lang]; exact Or.inr h1, h2, h3⟩
  | .rep lo hi cs, hp, hk => fun es ms hf hx => by
    rw [Node.Fits] at hf
    rw [Node.Each] at hp
    rw [Node.Ok] at hk
    obtain ⟨n, h1, h2, h3⟩ := hf
    obtain ⟨s, h4, h5, h6⟩ := complete_pow (seq_complete cs hp hk.2.2) n es ms h3 hx
    exact ⟨s, by rw [Node.lang]; exact ⟨n, h1, h2, h4⟩, h5, h6⟩

theorem any_complete : (cs : List Node) → AllEach Match.Plain cs → AllOk cs → Complete upper (anyLang upper cs) (AnyFits upper cs)
  | [], _, _ => fun es ms hf => by rw [AnyFits] at hf; exact hf.elim
  | c :: cs, hp, hk => fun es ms hf hx => by
    rw [AnyFits] at hf
    rw [AllEach] at hp
    rw [AllOk] at hk
    rcases hf with hf | hf
    · obtain ⟨s, h1, h2⟩ := node_complete c hp.1 hk.1 es ms hf hx
      exact ⟨s, by rw [anyLang]; exact Or.inl h1, h2⟩
    · obtain ⟨s, h1, h2⟩ := any_complete cs hp.2 hk.2 es ms hf hx
      exact ⟨s, by rw [anyLang]; exact Or.inr h1, h2⟩

theorem seq_complete : (cs : List Node) → AllEach Match.Plain cs → AllOk cs → Complete upper (seqLang upper cs) (SeqFits upper cs)
  | [], _, _ => by rw [seqLang]; exact complete_one (fun es ms h => by rwa [SeqFits] at h)
  | c :: cs, hp, hk => by
    rw [AllEach] at hp
    rw [AllOk] at hk
    rw [seqLang]
    exact complete_cat (node_complete c hp.1 hk.1) (seq_complete cs hp.2 hk.2) (fun es ms => by rw [SeqFits])
end

end
end Verif.Crx
