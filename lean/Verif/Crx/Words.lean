import Verif.Crx.Fits
/-!
# The words that a `match` reads
-/
namespace Verif.Crx
section
variable {upper : Nat → Bool}

/-- No edges, or one with a class of characters. -/
def CharLoop (l : Option Lab) : Prop := l = none ∨ ∃ k, l = some (.inp (clsSym k))

def tagEvs (ts : List Text) : List Rd := ts.map (fun t => .tok (.tag t))

theorem can_anyTag {e : Rd} (h : e ≠ .tok (.chr '\x00')) : Can upper e anyTag ↔ ∃ t, e = .tok (.tag t) := by
  cases e with
  | sep => simp [Can, anyTag]
  | wb => simp [Can, anyTag, wordBoundary]
  | nb => simp [Can, anyTag, nullBoundary]
  | tok t =>
    cases t with
    | tag t => simp [Can]
    | chr c =>
      have h0 : c.toNat ≠ 0 := fun hc => h (by rw [toNat_inj (show c.toNat = '\x00'.toNat from hc)])
      simp only [Can, if_neg h0]
      constructor
      · rintro (h | h | h)
        · cases h
        · simp [anyTag, anyChar] at h
        · revert h; split <;> simp [anyTag, anyUpper, anyLower]
      · rintro ⟨t, h⟩; cases h

theorem can_tag {e : Rd} {t : Text} (h : t ∉ internal) : Can upper e (.tag t) ↔ e = .tok (.tag t) := by
  simp only [internal, List.mem_cons, List.not_mem_nil, or_false, not_or] at h
  obtain ⟨h1, h2, h3, h4, h5, h6⟩ := h
  cases e with
  | sep => simp [Can]
  | wb => simp [Can, wordBoundary, h5]
  | nb => simp [Can, nullBoundary, h6]
  | tok u =>
    cases u with
    | tag u => simp [Can, anyTag, h1, eq_comm]
    | chr c =>
      simp only [Can]
      split
      · simp [anyTag, h1]
      · simp only [anyChar, Sym.tag.injEq, h2, false_or]
        split <;> simp [anyUpper, anyLower, h3, h4]

theorem clsSym_ne_anyTag (k : Cls) : clsSym k ≠ anyTag := by cases k <;> simp [clsSym, anyTag, anyChar, anyUpper, anyLower]

theorem clsSym_internal (k : Cls) {t : Text} (h : clsSym k = .tag t) : t ∈ internal := by
  revert h
  cases k <;> simp only [clsSym, anyChar, anyUpper, anyLower, Sym.tag.injEq, reduceCtorEq, false_imp_iff] <;> rintro rfl <;> simp [internal]

theorem tagEvs_append_iff {t : List Text} {x y : List Rd} : tagEvs t = x ++ y ↔ ∃ a b, t = a ++ b ∧ x = tagEvs a ∧ y = tagEvs b := by
  unfold tagEvs
  rw [List.map_eq_append_iff]
  constructor
  · rintro ⟨a, b, h1, h2, h3⟩; exact ⟨a, b, h1, h2.symm, h3.symm⟩
  · rintro ⟨a, b, h1, h2, h3⟩; exact ⟨a, b, h1, h2.symm, h3.symm⟩

theorem all_anyTag {es : List Rd} (hes : Rd.tok (.chr '\x00') ∉ es) : (∀ e ∈ es, Can upper e anyTag) ↔ ∃ r, es = tagEvs r := by
  induction es with
  | nil => simp only [List.not_mem_nil, false_imp_iff, implies_true, true_iff]; exact ⟨[], rfl⟩
  | cons e es ih =>
    rw [List.forall_mem_cons, ih (fun h => hes (by simp [h])), can_anyTag (fun h => hes (by simp [h]))]
    constructor
    · rintro ⟨⟨t, rfl⟩, r, rfl⟩; exact ⟨t :: r, rfl⟩
    · rintro ⟨r, h⟩
      cases r with
      | nil => cases h
      | cons t r =>
        simp only [tagEvs, List.map_cons, List.cons.injEq] at h
        exact ⟨⟨t, h.1⟩, r, h.2⟩

theorem tagsLang (ts : List Text) (hn : ∀ t ∈ ts, t!"<" ++ t ++ t!">" ∉ internal) (loop : Bool) (hp : TagsPlain loop ts) (l : Option Lab)
    (hl : if loop = true then l = some (.inp anyTag) else CharLoop l) (es : List Rd) (hes : Rd.tok (.chr '\x00') ∉ es) :
    evLang upper l (ts.flatMap tagStep) es ↔ ∃ tags, es = tagEvs tags ∧ TagsFit ts tags := by
  induction ts generalizing l loop es with
  | nil =>
    simp only [List.flatMap_nil, evLang]
    constructor
    · rintro rfl; exact ⟨[], rfl, .nil⟩
    · rintro ⟨tags, rfl, h⟩; cases h; rfl
  | cons t ts ih =>
    have hn' := fun u hu => hn u (List.mem_cons_of_mem _ hu)
    have hne : loop = false → CharLoop l := fun h => by rw [h] at hl; simpa using hl
    rw [List.flatMap_cons]
    by_cases e1 : t = t!"+"
    · subst e1
      unfold TagsPlain at hp
      rw [if_neg (by simp)] at hp
      have hloop : loop = false := by
        cases loop with
        | false => rfl
        | true => exact absurd rfl (hp.1 rfl).2
      have hl' : ¬ (l = some (.inp anyTag)) := by
        rcases hne hloop with h | ⟨k, h⟩ <;> rw [h]
        · simp
        · intro h; injection h with h; injection h with h; exact clsSym_ne_anyTag k h
      simp only [tagStep, if_pos, List.singleton_append, evLang, evStep, afterStep, if_neg hl']
      have ih' := fun es hes => ih hn' true (by simpa using hp.2) (some (.inp anyTag)) (by simp) es hes
      constructor
      · rintro ⟨x, y, rfl, ⟨h2, h3⟩, h4⟩
        obtain ⟨r, rfl⟩ := (all_anyTag (fun h => hes (by simp [h]))).1 h3
        obtain ⟨tags, rfl, h5⟩ := (ih' y (fun h => hes (by simp [h]))).1 h4
        exact ⟨r ++ tags, by simp [tagEvs], .plus (fun h => h2 (by rw [h]; rfl)) h5⟩
      · rintro ⟨tags, rfl, h⟩
        cases h with
        | @plus _ r s h1 h2 =>
          have hr : Rd.tok (.chr '\x00') ∉ tagEvs r := by simp [tagEvs]
          exact ⟨tagEvs r, tagEvs s, by simp [tagEvs], ⟨fun h => h1 (List.map_eq_nil_iff.1 h), (all_anyTag hr).2 ⟨r, rfl⟩⟩, (ih' _ (by simp [tagEvs])).2 ⟨s, rfl, h2⟩⟩
        | one h1 _ => simp at h1
    by_cases e2 : t = t!"*"
    · subst e2
      unfold TagsPlain at hp
      rw [if_neg (by simp)] at hp
      simp only [tagStep, if_neg e1, if_pos, List.singleton_append, evLang, evStep, afterStep]
      have ih' := fun es hes => ih hn' true (by simpa using hp.2) (some (.inp anyTag)) (by simp) es hes
      constructor
      · rintro ⟨x, y, rfl, h3, h4⟩
        obtain ⟨r, rfl⟩ := (all_anyTag (fun h => hes (by simp [h]))).1 h3
        obtain ⟨tags, rfl, h5⟩ := (ih' y (fun h => hes (by simp [h]))).1 h4
        exact ⟨r ++ tags, by simp [tagEvs], .star h5⟩
      · rintro ⟨tags, rfl, h⟩
        cases h with
        | @star _ r s h2 =>
          have hr : Rd.tok (.chr '\x00') ∉ tagEvs r := by simp [tagEvs]
          exact ⟨tagEvs r, tagEvs s, by simp [tagEvs], (all_anyTag hr).2 ⟨r, rfl⟩, (ih' _ (by simp [tagEvs])).2 ⟨s, rfl, h2⟩⟩
        | one h1 _ => simp at h1
    by_cases e3 : t = t!"?"
    · subst e3
      unfold TagsPlain at hp
      rw [if_neg (by simp)] at hp
      have hloop : loop = false := by
        cases loop with
        | false => rfl
        | true => exact absurd rfl (hp.1 rfl).1
      have hl' : ¬ (l = some (.inp anyTag)) := by
        rcases hne hloop with h | ⟨k, h⟩ <;> rw [h]
        · simp
        · intro h; injection h with h; injection h with h; exact clsSym_ne_anyTag k h
      simp only [tagStep, if_neg e1, if_neg e2, if_pos, List.singleton_append, evLang, evStep, afterStep, if_neg hl']
      have ih' := fun es hes => ih hn' false (by simpa using hp.2) none (by simp [CharLoop]) es hes
      constructor
      · rintro ⟨x, y, rfl, ⟨e, rfl, h3⟩, h4⟩
        obtain ⟨u, rfl⟩ := (can_anyTag (fun h => hes (by simp [h]))).1 h3
        obtain ⟨tags, rfl, h5⟩ := (ih' y (fun h => hes (by simp [h]))).1 h4
        exact ⟨u :: tags, by simp [tagEvs], .any h5⟩
      · rintro ⟨tags, rfl, h⟩
        cases h with
        | @any x _ s h2 => exact ⟨[.tok (.tag x)], tagEvs s, rfl, ⟨_, rfl, (can_anyTag (by simp)).2 ⟨x, rfl⟩⟩, (ih' _ (by simp [tagEvs])).2 ⟨s, rfl, h2⟩⟩
        | one h1 _ => simp at h1
    by_cases e4 : t = []
    · subst e4
      unfold TagsPlain at hp
      rw [if_pos rfl] at hp
      simp only [tagStep, if_neg e1, if_neg e2, if_neg e3, if_pos, List.nil_append]
      rw [ih hn' loop hp l hl es hes]
      constructor
      · rintro ⟨tags, h1, h2⟩; exact ⟨tags, h1, .empty h2⟩
      · rintro ⟨tags, h1, h2⟩
        cases h2 with
        | empty h2 => exact ⟨tags, h1, h2⟩
        | one h9 _ => simp at h9
    · unfold TagsPlain at hp
      rw [if_neg e4] at hp
      have hname := hn t (by simp)
      have hl' : ¬ (l = some (.inp (.tag (t!"<" ++ t ++ t!">")))) := by
        intro h
        cases loop with
        | true =>
          rw [if_pos rfl] at hl
          rw [hl] at h
          injection h with h; injection h with h
          simp only [anyTag, Sym.tag.injEq] at h
          exact hname (by rw [← h]; simp [internal])
        | false =>
          rcases hne rfl with h' | ⟨k, h'⟩
          · rw [h'] at h; cases h
          · rw [h'] at h
            injection h with h; injection h with h
            exact hname (clsSym_internal k h)
      simp only [tagStep, if_neg e1, if_neg e2, if_neg e3, if_neg e4]
      have hfit : ∀ tags, TagsFit (t :: ts) tags ↔ ∃ s, tags = (t!"<" ++ t ++ t!">") :: s ∧ TagsFit ts s := by
        intro tags
        constructor
        · intro h
          cases h with
          | one h1 h2 => exact ⟨_, rfl, h2⟩
          | empty _ => exact absurd rfl e4
          | any _ => exact absurd rfl e3
          | plus _ _ => exact absurd rfl e1
          | star _ => exact absurd rfl e2
        · rintro ⟨s, rfl, h⟩; exact .one (by simp [e1, e2, e3, e4]) h
      simp only [hfit]
      generalize t!"<" ++ t ++ t!">" = g at hl' hname
      simp only [List.singleton_append, evLang, evStep, afterStep, if_neg hl']
      have ih' := fun es hes => ih hn' false (by simpa [e1, e2] using hp.2) none (by simp [CharLoop]) es hes
      constructor
      · rintro ⟨x, y, rfl, ⟨e, rfl, h3⟩, h4⟩
        rw [can_tag hname] at h3
        obtain ⟨tags, rfl, h5⟩ := (ih' y (fun h => hes (by simp [h]))).1 h4
        exact ⟨g :: tags, by simp [tagEvs, h3], tags, rfl, h5⟩
      · rintro ⟨tags, rfl, s, rfl, h2⟩
        exact ⟨[.tok (.tag g)], tagEvs s, rfl, ⟨_, rfl, (can_tag hname).2 rfl⟩, (ih' _ (by simp [tagEvs])).2 ⟨s, rfl, h2⟩⟩

/-! ## Words -/

def toks (ts : List Tok) : List Rd := ts.map .tok

/-- What the restorer reads of a word, without the end. -/
def Seen.body (w : Seen) : List Rd := chars w.srcSurf ++ .sep :: (chars w.srcLem ++ .sep :: (toks w.form ++ .sep :: toks w.surf))

structure Clean (es : List Rd) : Prop where
  slash : Rd.tok (.chr '/') ∉ es
  nul : Rd.tok (.chr '\x00') ∉ es
  tags : ∀ t ∈ internal, Rd.tok (.tag t) ∉ es

theorem Clean.left {x y : List Rd} (h : Clean (x ++ y)) : Clean x :=
  ⟨fun hx => h.slash (by simp [hx]), fun hx => h.nul (by simp [hx]), fun t ht hx => h.tags t ht (by simp [hx])⟩

theorem Clean.right {x y : List Rd} (h : Clean (x ++ y)) : Clean y :=
  ⟨fun hx => h.slash (by simp [hx]), fun hx => h.nul (by simp [hx]), fun t ht hx => h.tags t ht (by simp [hx])⟩

theorem Clean.chars {t : Text} (h : Clean (chars t)) : '\x00' ∉ t := fun hx => h.nul (List.mem_map.2 ⟨_, hx, rfl⟩)

theorem can_slash {e : Rd} (h : e ≠ .tok (.chr '/')) : Can upper e (.chr '/'.toNat) ↔ e = .sep := by
  cases e with
  | sep => simp [Can]
  | wb => simp [Can, wordBoundary]
  | nb => simp [Can, nullBoundary]
  | tok t =>
    cases t with
    | tag t => simp [Can, anyTag]
    | chr c =>
      have hc : c ≠ '/' := fun hc => h (by rw [hc])
      simp only [Can, reduceCtorEq, iff_false]
      split
      · simp [anyTag]
      · rintro (h | h | h)
        · injection h with h; exact hc (toNat_inj h).symm
        · simp [anyChar] at h
        · revert h; split <;> simp [anyUpper, anyLower]

theorem slash_cut {l : Option Lab} {A B : List StepT} (hl : A.foldl afterStep l ≠ some (.inp (.chr '/'.toNat))) {y : List Rd} (hy : Clean y) :
    evLang upper l (A ++ slash :: B) y ↔ ∃ a b, y = a ++ .sep :: b ∧ evLang upper l A a ∧ evLang upper none B b := by
  rw [evLang_append]
  unfold slash
  simp only [evLang, evStep, afterStep, if_neg hl]
  constructor
  · rintro ⟨x, z, rfl, h1, x', z', rfl, ⟨e, rfl, h2⟩, h3⟩
    rw [can_slash (fun h => hy.slash (by simp [h]))] at h2
    subst h2
    exact ⟨x, z', by simp, h1, h3⟩
  · rintro ⟨a, b, rfl, h1, h2⟩
    exact ⟨a, .sep :: b, rfl, h1, [.sep], b, rfl, ⟨_, rfl, rfl⟩, h2⟩

theorem clsSym_ne_slash (k : Cls) : clsSym k ≠ .chr '/'.toNat := by cases k <;> simp [clsSym, anyChar, anyUpper, anyLower] <;> decide

theorem CharLoop.ne_slash {l : Option Lab} (h : CharLoop l) : l ≠ some (.inp (.chr '/'.toNat)) := by
  rcases h with h | ⟨k, h⟩ <;> rw [h]
  · simp
  · intro h; injection h with h; injection h with h; exact clsSym_ne_slash k h

theorem CharLoop.caps (spec : Text) {l : Option Lab} (h : CharLoop l) : CharLoop ((capsSteps upper spec).foldl afterStep l) := by
  unfold capsSteps
  induction spec.flatMap units generalizing l with
  | nil => exact h
  | cons n ns ih =>
    rw [List.map_cons, List.foldl_cons]
    apply ih
    unfold capsStep
    split
    · exact Or.inr ⟨.any, rfl⟩
    · split
      · rename_i h; rw [h]; exact Or.inr ⟨.space, rfl⟩
      · split
        · exact Or.inr ⟨.upper, rfl⟩
        · exact Or.inr ⟨.lower, rfl⟩

theorem CharLoop.glob (pat : Text) {l : Option Lab} (h : CharLoop l) : CharLoop ((globSteps pat).foldl afterStep l) := by
  unfold globSteps
  induction pat.flatMap units generalizing l with
  | nil => exact h
  | cons n ns ih =>
    rw [List.map_cons, List.foldl_cons]
    apply ih
    unfold globStep
    split
    · exact Or.inr ⟨.any, rfl⟩
    · simp only [afterStep]
      split
      · exact h
      · exact Or.inl rfl

theorem CharLoop.text (pat spec : Text) {l : Option Lab} (h : CharLoop l) : CharLoop ((textSteps upper pat spec).foldl afterStep l) := by
  unfold textSteps
  split
  · exact h.caps spec
  · exact h.glob pat

theorem tagLoop (ts : List Text) {l : Option Lab} (h : l ≠ some (.inp (.chr '/'.toNat))) : (ts.flatMap tagStep).foldl afterStep l ≠ some (.inp (.chr '/'.toNat)) := by
  induction ts generalizing l with
  | nil => exact h
  | cons t ts ih =>
    rw [List.flatMap_cons, List.foldl_append]
    apply ih
    unfold tagStep
    split
    · simp [afterStep, anyTag]
    · split
      · simp [afterStep, anyTag]
      · split
        · simp only [List.foldl_cons, List.foldl_nil, afterStep]
          split
          · exact h
          · simp
        · split
          · exact h
          · simp only [List.foldl_cons, List.foldl_nil, afterStep]
            split
            · exact h
            · simp

theorem chars_of {a : List Rd} (ha : Clean a) (h : ∀ e ∈ a, ∃ s, (s = anyChar ∨ s = anyUpper ∨ s = anyLower ∨ ∃ n, s = .chr n ∧ n ≠ '/'.toNat) ∧ Can upper e s) :
    ∃ t, a = chars t := by
  induction a with
  | nil => exact ⟨[], rfl⟩
  | cons e a ih =>
    obtain ⟨t, rfl⟩ := ih (Clean.right (x := [e]) ha) (fun x hx => h x (by simp [hx]))
    obtain ⟨s, hs, hc⟩ := h e (by simp)
    have he : ∃ c, e = .tok (.chr c) := by
      cases e with
      | sep =>
        simp only [Can] at hc
        subst hc
        rcases hs with h | h | h | ⟨n, h, h'⟩
        · simp [anyChar] at h
        · simp [anyUpper] at h
        · simp [anyLower] at h
        · injection h with h; exact absurd h.symm h'
      | wb => simp only [Can] at hc; subst hc; simp [anyChar, anyUpper, anyLower, wordBoundary] at hs
      | nb => simp only [Can] at hc; subst hc; simp [anyChar, anyUpper, anyLower, nullBoundary] at hs
      | tok u =>
        cases u with
        | chr c => exact ⟨c, rfl⟩
        | tag u =>
          have hu : u ∉ internal := fun hu => ha.tags u hu (by simp)
          simp only [internal, List.mem_cons, List.not_mem_nil, or_false, not_or] at hu
          simp only [Can] at hc
          rcases hc with rfl | rfl
          · simp [anyChar, anyUpper, anyLower, hu] at hs
          · simp [anyChar, anyUpper, anyLower, anyTag] at hs
    obtain ⟨c, rfl⟩ := he
    exact ⟨c :: t, rfl⟩

theorem capsField (spec : Text) (hs : Basic spec) {a : List Rd} (ha : Clean a) :
    evLang upper none (capsSteps upper spec) a ↔ ∃ t, a = chars t ∧ CaseFits upper spec t := by
  have key : ∀ t, '\x00' ∉ t → (evLang upper none (capsSteps upper spec) (chars t) ↔ CaseFits upper spec t) := fun t ht => capsLang spec hs none t ht
  constructor
  · intro h
    obtain ⟨t, rfl⟩ := chars_of ha (fun e he => by
      obtain ⟨s, h1, x, h2, h3⟩ := evLang_mem _ _ _ h e he
      refine ⟨x, ?_, h3⟩
      unfold capsSteps at h1
      rw [units_basic hs, List.map_map] at h1
      obtain ⟨c, _, rfl⟩ := List.mem_map.1 h1
      rw [Function.comp_apply, capsStep_eq] at h2
      injection h2 with h2
      rw [← h2]
      cases clsOf upper c with
      | any => exact Or.inl rfl
      | space => exact Or.inr (Or.inr (Or.inr ⟨_, rfl, by decide⟩))
      | upper => exact Or.inr (Or.inl rfl)
      | lower => exact Or.inr (Or.inr (Or.inl rfl)))
    exact ⟨t, rfl, (key t ha.chars).1 h⟩
  · rintro ⟨t, rfl, h⟩
    exact (key t ha.chars).2 h

theorem globField (pat : Text) (hb : Basic pat) (hn : NoDouble pat) (hsl : '/' ∉ pat) {a : List Rd} (ha : Clean a) :
    evLang upper none (globSteps pat) a ↔ ∃ t, a = chars t ∧ Glob pat t := by
  have key : ∀ t, '\x00' ∉ t → (evLang upper none (globSteps pat) (chars t) ↔ Glob pat t) := fun t ht => globLang pat hb hn none (Or.inl rfl) t ht
  constructor
  · intro h
    obtain ⟨t, rfl⟩ := chars_of ha (fun e he => by
      obtain ⟨s, h1, x, h2, h3⟩ := evLang_mem _ _ _ h e he
      refine ⟨x, ?_, h3⟩
      unfold globSteps at h1
      rw [units_basic hb, List.map_map] at h1
      obtain ⟨c, hc, rfl⟩ := List.mem_map.1 h1
      rw [Function.comp_apply, globStep_eq] at h2
      split at h2
      · injection h2 with h2
        exact Or.inl h2.symm
      · injection h2 with h2
        exact Or.inr (Or.inr (Or.inr ⟨_, h2.symm, fun h => hsl (by rw [← toNat_inj h]; exact hc)⟩)))
    exact ⟨t, rfl, (key t ha.chars).1 h⟩
  · rintro ⟨t, rfl, h⟩
    exact (key t ha.chars).2 h

theorem glob_star (t : Text) : Glob t!"*" t ↔ t ≠ [] := by
  constructor
  · intro h
    cases h with
    | one h _ => exact absurd rfl h
    | many h1 h2 => cases h2; simpa using h1
  · intro h
    have := Glob.many (p := []) (s := []) h .nil
    simpa using this

theorem case_star (t : Text) : CaseFits upper t!"*" t ↔ t ≠ [] := by
  unfold CaseFits
  simp only [List.map_cons, List.map_nil, squeeze, clsOf]
  simp only [if_pos, reduceCtorEq, if_false]
  constructor
  · intro h
    cases h with
    | cons h1 _ h2 => cases h2; simpa using h1
  · intro h
    have := Runs.cons (upper := upper) (k := .any) (ks := []) h (fun _ _ => trivial) .nil
    simpa using this

theorem textField (pat spec : Text) (hag : pat = t!"*" ∨ spec = t!"*") (hb : Basic pat) (hb' : Basic spec) (hn : NoDouble pat) (hsl : '/' ∉ pat) {a : List Rd} (ha : Clean a) :
    evLang upper none (textSteps upper pat spec) a ↔ ∃ t, a = chars t ∧ TextFits upper spec pat t := by
  unfold textSteps TextFits
  by_cases e1 : pat = t!"*"
  · rw [if_pos e1, capsField spec hb' ha]
    by_cases e2 : spec = t!"*"
    · simp only [e1, e2, glob_star, case_star, if_true]
    · simp only [if_neg e2]
  · rw [if_neg e1, globField pat hb hn hsl ha]
    have e2 := hag.resolve_left e1
    simp only [if_pos e2]

theorem match_words (m : Match) (hp : m.Plain) (hag : m.Agree) {y : List Rd} (hy : Clean y) :
    evLang upper none (m.steps upper) y ↔ ∃ w : Seen, y = w.body ∧ m.Fits upper w := by
  have c0 : CharLoop none := Or.inl rfl
  have b := hp.basic
  have s1 : '/' ∉ m.lem := fun h => hp.slash (by simp [h])
  have s2 : '/' ∉ m.surf := fun h => hp.slash (by simp [h])
  unfold Match.steps
  constructor
  · intro h
    obtain ⟨f1, r, rfl, h1, h⟩ := (slash_cut (CharLoop.caps _ c0).ne_slash hy).1 h
    have hy1 : Clean f1 := hy.left
    have hy := Clean.right (x := [.sep]) hy.right
    obtain ⟨f2, r, rfl, h2, h⟩ := (slash_cut (CharLoop.caps _ c0).ne_slash hy).1 h
    have hy2 : Clean f2 := hy.left
    have hy := Clean.right (x := [.sep]) hy.right
    rw [← List.append_assoc] at h
    obtain ⟨f3, f4, rfl, h3, h4⟩ := (slash_cut (by rw [List.foldl_append]; exact tagLoop _ (CharLoop.text _ _ c0).ne_slash) hy).1 h
    have hy3 : Clean f3 := hy.left
    have hy4 := Clean.right (x := [.sep]) hy.right
    obtain ⟨t1, rfl, g1⟩ := (capsField m.srcsurf (b _ (by simp)) hy1).1 h1
    obtain ⟨t2, rfl, g2⟩ := (capsField m.srclem (b _ (by simp)) hy2).1 h2
    rw [evLang_append] at h3
    obtain ⟨fa, fb, rfl, h3, h5⟩ := h3
    obtain ⟨lem, rfl, g3⟩ := (textField m.lem m.trglem hag.1 (b _ (by simp)) (b _ (by simp)) hp.lem s1 hy3.left).1 h3
    obtain ⟨tags, rfl, g5⟩ := (tagsLang m.tags hp.names false hp.tags _ (by simpa using CharLoop.text _ _ c0) fb hy3.right.nul).1 h5
    obtain ⟨t4, rfl, g4⟩ := (textField m.surf m.trgsurf hag.2 (b _ (by simp)) (b _ (by simp)) hp.surf s2 hy4).1 h4
    refine ⟨⟨t1, t2, lem.map .chr ++ tags.map .tag, t4.map .chr⟩, ?_, g1, g2, ⟨lem, tags, rfl, g3, g5⟩, t4, rfl, g4⟩
    simp [Seen.body, chars, toks, tagEvs, Function.comp_def]
  · rintro ⟨⟨t1, t2, fm, sf⟩, rfl, h1, h2, ⟨lem, tags, rfl, h3, h5⟩, t4, rfl, h4⟩
    have e : Seen.body ⟨t1, t2, lem.map .chr ++ tags.map .tag, t4.map .chr⟩ =
        chars t1 ++ .sep :: (chars t2 ++ .sep :: ((chars lem ++ tagEvs tags) ++ .sep :: chars t4)) := by simp [Seen.body, chars, toks, tagEvs, Function.comp_def]
    rw [e] at hy ⊢
    refine (slash_cut (CharLoop.caps _ c0).ne_slash hy).2 ⟨_, _, rfl, (capsField m.srcsurf (b _ (by simp)) hy.left).2 ⟨t1, rfl, h1⟩, ?_⟩
    have hy := Clean.right (x := [.sep]) hy.right
    refine (slash_cut (CharLoop.caps _ c0).ne_slash hy).2 ⟨_, _, rfl, (capsField m.srclem (b _ (by simp)) hy.left).2 ⟨t2, rfl, h2⟩, ?_⟩
    have hy := Clean.right (x := [.sep]) hy.right
    rw [← List.append_assoc]
    have hy4 := Clean.right (x := [.sep]) hy.right
    refine (slash_cut (by rw [List.foldl_append]; exact tagLoop _ (CharLoop.text _ _ c0).ne_slash) hy).2 ⟨_, _, rfl, ?_,
      (textField m.surf m.trgsurf hag.2 (b _ (by simp)) (b _ (by simp)) hp.surf s2 hy4).2 ⟨t4, rfl, h4⟩⟩
    rw [evLang_append]
    exact ⟨_, _, rfl, (textField m.lem m.trglem hag.1 (b _ (by simp)) (b _ (by simp)) hp.lem s1 hy.left.left).2 ⟨lem, rfl, h3⟩,
      (tagsLang m.tags hp.names false hp.tags _ (by simpa using CharLoop.text _ _ c0) _ hy.left.right.nul).2 ⟨tags, rfl, h5⟩⟩

end
end Verif.Crx
