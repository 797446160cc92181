import Verif.Crx.Rules
/-!
# What a `match` reads
-/
namespace Verif.Crx

/-- What the restorer reads: the separators of the parts of a word, characters and tags, the end of a word, the beginning of a section. -/
inductive Rd where
  | sep
  | tok (t : Tok)
  | wb
  | nb
  deriving DecidableEq

/-- The label can be followed. -/
def Can (upper : Nat → Bool) : Rd → Sym → Prop
  | .sep, a => a = .chr '/'.toNat
  | .tok (.chr c), a =>
    if c.toNat = 0 then a = anyTag else a = .chr c.toNat ∨ a = anyChar ∨ a = (if upper c.toNat = true then anyUpper else anyLower)
  | .tok (.tag t), a => a = .tag t ∨ a = anyTag
  | .wb, a => a = wordBoundary
  | .nb, a => a = nullBoundary

/-- The labels on a path read the events. -/
inductive ReadsL (upper : Nat → Bool) : List Lab → List Rd → Prop where
  | nil : ReadsL upper [] []
  | silent {a : Lab} {s : List Lab} {es : List Rd} : a.input = none → ReadsL upper s es → ReadsL upper (a :: s) es
  | read {a : Lab} {x : Sym} {s : List Lab} {e : Rd} {es : List Rd} : a.input = some x → Can upper e x → ReadsL upper s es → ReadsL upper (a :: s) (e :: es)

section
variable {upper : Nat → Bool}

theorem ReadsL.append {s u : List Lab} {es fs : List Rd} (h : ReadsL upper s es) (h' : ReadsL upper u fs) : ReadsL upper (s ++ u) (es ++ fs) := by
  induction h with
  | nil => exact h'
  | silent h1 _ ih => exact .silent h1 ih
  | read h1 h2 _ ih => exact .read h1 h2 ih

theorem ReadsL.split {s u : List Lab} {es : List Rd} (h : ReadsL upper (s ++ u) es) : ∃ x y, es = x ++ y ∧ ReadsL upper s x ∧ ReadsL upper u y := by
  induction s generalizing es with
  | nil => exact ⟨[], es, rfl, .nil, h⟩
  | cons a s ih =>
    cases h with
    | silent h1 h2 =>
      obtain ⟨x, y, rfl, h3, h4⟩ := ih h2
      exact ⟨x, y, rfl, .silent h1 h3, h4⟩
    | read h1 h2 h3 =>
      obtain ⟨x, y, rfl, h4, h5⟩ := ih h3
      exact ⟨_ :: x, y, rfl, .read h1 h2 h4, h5⟩

theorem readsL_nil {es : List Rd} : ReadsL upper [] es ↔ es = [] := by
  constructor
  · intro h; cases h; rfl
  · rintro rfl; exact .nil

theorem readsL_inp {a : Sym} {es : List Rd} : ReadsL upper [.inp a] es ↔ ∃ e, es = [e] ∧ Can upper e a := by
  constructor
  · intro h
    cases h with
    | silent h1 _ => cases h1
    | read h1 h2 h3 =>
      rw [readsL_nil] at h3
      injection h1 with h1
      subst h1 h3
      exact ⟨_, rfl, h2⟩
  · rintro ⟨e, rfl, h⟩; exact .read rfl h .nil

theorem readsL_replicate {a : Sym} {n : Nat} {es : List Rd} : ReadsL upper (List.replicate n (.inp a)) es ↔ es.length = n ∧ ∀ e ∈ es, Can upper e a := by
  induction n generalizing es with
  | zero => rw [List.replicate_zero, readsL_nil]; constructor
            · rintro rfl; simp
            · rintro ⟨h, _⟩; exact List.eq_nil_of_length_eq_zero h
  | succ n ih =>
    rw [List.replicate_succ]
    constructor
    · intro h
      cases h with
      | silent h1 _ => cases h1
      | read h1 h2 h3 =>
        injection h1 with h1
        subst h1
        obtain ⟨h4, h5⟩ := ih.1 h3
        refine ⟨by simp [h4], ?_⟩
        intro e he
        rcases List.mem_cons.1 he with rfl | he
        · exact h2
        · exact h5 e he
    · rintro ⟨h1, h2⟩
      cases es with
      | nil => simp at h1
      | cons e es =>
        exact .read rfl (h2 e (by simp)) (ih.2 ⟨by simpa using h1, fun x hx => h2 x (by simp [hx])⟩)

/-! ## Events of steps -/

/-- The steps have labels with an input only. -/
def StepT.sym : StepT → Option Sym
  | .one (.inp a) => some a
  | .plus (.inp a) => some a
  | .star (.inp a) => some a
  | _ => none

def evStep (upper : Nat → Bool) (l : Option Lab) : StepT → List Rd → Prop
  | .one (.inp a), es => if l = some (.inp a) then es = [] else ∃ e, es = [e] ∧ Can upper e a
  | .plus (.inp a), es => if l = some (.inp a) then es = [] else es ≠ [] ∧ ∀ e ∈ es, Can upper e a
  | .star (.inp a), es => ∀ e ∈ es, Can upper e a
  | _, _ => False

def evLang (upper : Nat → Bool) : Option Lab → List StepT → List Rd → Prop
  | _, [], es => es = []
  | l, s :: ss, es => ∃ x y, es = x ++ y ∧ evStep upper l s x ∧ evLang upper (afterStep l s) ss y

theorem evStep_iff (l : Option Lab) (s : StepT) (hs : s.sym ≠ none) (es : List Rd) : (∃ u, stepLang l s u ∧ ReadsL upper u es) ↔ evStep upper l s es := by
  have hone : (∃ u, Lang.one u ∧ ReadsL upper u es) ↔ es = [] := by
    constructor
    · rintro ⟨u, h1, h2⟩; rw [show u = [] from h1] at h2; exact readsL_nil.1 h2
    · rintro rfl; exact ⟨[], rfl, .nil⟩
  cases s with
  | one a =>
    cases a with
    | inp a =>
      by_cases hl : l = some (.inp a)
      · simp only [stepLang, evStep, if_pos hl]; exact hone
      · simp only [stepLang, evStep, if_neg hl]
        constructor
        · rintro ⟨u, rfl, h⟩; exact readsL_inp.1 h
        · intro h; exact ⟨_, rfl, readsL_inp.2 h⟩
    | _ => exact absurd rfl hs
  | plus a =>
    cases a with
    | inp a =>
      by_cases hl : l = some (.inp a)
      · simp only [stepLang, evStep, if_pos hl]; exact hone
      · simp only [stepLang, evStep, if_neg hl]
        constructor
        · rintro ⟨u, ⟨x, y, rfl, rfl, n, rfl⟩, h⟩
          have h1 : ReadsL upper (List.replicate (n + 1) (.inp a)) es := h
          obtain ⟨h2, h3⟩ := readsL_replicate.1 h1
          exact ⟨by rintro rfl; simp at h2, h3⟩
        · rintro ⟨h1, h2⟩
          cases es with
          | nil => exact absurd rfl h1
          | cons e es =>
            exact ⟨List.replicate (es.length + 1) (.inp a), ⟨[.inp a], List.replicate es.length (.inp a), rfl, rfl, _, rfl⟩, readsL_replicate.2 ⟨rfl, h2⟩⟩
    | _ => exact absurd rfl hs
  | star a =>
    cases a with
    | inp a =>
      simp only [stepLang, evStep]
      constructor
      · rintro ⟨u, ⟨x, y, rfl, h0, n, rfl⟩, h⟩
        rw [show x = [] from h0] at h
        exact (readsL_replicate.1 h).2
      · intro h
        exact ⟨List.replicate es.length (.inp a), ⟨[], _, rfl, rfl, _, rfl⟩, readsL_replicate.2 ⟨rfl, h⟩⟩
    | _ => exact absurd rfl hs

theorem evLang_iff (l : Option Lab) (ss : List StepT) (hs : ∀ s ∈ ss, s.sym ≠ none) (es : List Rd) :
    (∃ u, stepsLang l ss u ∧ ReadsL upper u es) ↔ evLang upper l ss es := by
  induction ss generalizing l es with
  | nil =>
    unfold stepsLang evLang
    constructor
    · rintro ⟨u, h1, h2⟩; rw [show u = [] from h1] at h2; exact readsL_nil.1 h2
    · rintro rfl; exact ⟨[], rfl, .nil⟩
  | cons s ss ih =>
    have ih' := fun l es => ih (fun x hx => hs x (by simp [hx])) (l := l) (es := es)
    unfold stepsLang evLang
    constructor
    · rintro ⟨u, ⟨a, b, rfl, h1, h2⟩, h3⟩
      obtain ⟨x, y, rfl, h4, h5⟩ := h3.split
      exact ⟨x, y, rfl, (evStep_iff l s (hs s (by simp)) x).1 ⟨a, h1, h4⟩, (ih' _ _).1 ⟨b, h2, h5⟩⟩
    · rintro ⟨x, y, rfl, h1, h2⟩
      obtain ⟨a, h3, h4⟩ := (evStep_iff l s (hs s (by simp)) x).2 h1
      obtain ⟨b, h5, h6⟩ := (ih' _ _).2 h2
      exact ⟨a ++ b, ⟨a, b, rfl, h3, h5⟩, h4.append h6⟩

theorem evLang_append (l : Option Lab) (A B : List StepT) (es : List Rd) :
    evLang upper l (A ++ B) es ↔ ∃ x y, es = x ++ y ∧ evLang upper l A x ∧ evLang upper (A.foldl afterStep l) B y := by
  induction A generalizing l es with
  | nil =>
    constructor
    · intro h; exact ⟨[], es, rfl, rfl, h⟩
    · rintro ⟨x, y, rfl, h1, h2⟩; rw [show x = [] from h1]; exact h2
  | cons s A ih =>
    rw [List.cons_append]
    simp only [evLang, ih, List.foldl_cons]
    constructor
    · rintro ⟨x, z, rfl, h1, y, w, rfl, h2, h3⟩
      exact ⟨x ++ y, w, by simp, ⟨x, y, rfl, h1, h2⟩, h3⟩
    · rintro ⟨x, w, rfl, ⟨a, b, rfl, h1, h2⟩, h3⟩
      exact ⟨a, b ++ w, by simp, h1, b, w, rfl, h2, h3⟩

/-- Everything that is read is read by the label of a step. -/
theorem evLang_mem (l : Option Lab) (ss : List StepT) (es : List Rd) (h : evLang upper l ss es) : ∀ e ∈ es, ∃ s ∈ ss, ∃ a, s.sym = some a ∧ Can upper e a := by
  induction ss generalizing l es with
  | nil => rw [show es = [] from h]; intro e he; cases he
  | cons s ss ih =>
    obtain ⟨x, y, rfl, h1, h2⟩ := h
    intro e he
    rcases List.mem_append.1 he with he | he
    · refine ⟨s, by simp, ?_⟩
      cases s with
      | one a =>
        cases a with
        | inp a =>
          simp only [evStep] at h1
          split at h1
          · rw [h1] at he; cases he
          · obtain ⟨e', rfl, hc⟩ := h1
            rw [List.mem_singleton.1 he]
            exact ⟨a, rfl, hc⟩
        | _ => exact h1.elim
      | plus a =>
        cases a with
        | inp a =>
          simp only [evStep] at h1
          split at h1
          · rw [h1] at he; cases he
          · exact ⟨a, rfl, h1.2 e he⟩
        | _ => exact h1.elim
      | star a =>
        cases a with
        | inp a => exact ⟨a, rfl, h1 e he⟩
        | _ => exact h1.elim
    · obtain ⟨s', h3, h4⟩ := ih _ _ h2 e he
      exact ⟨s', by simp [h3], h4⟩

/-! ## Characters -/

theorem units_basic {t : Text} (h : Basic t) : t.flatMap units = t.map Char.toNat := by
  induction t with
  | nil => rfl
  | cons c t ih =>
    rw [List.flatMap_cons, List.map_cons, ih (fun x hx => h x (by simp [hx]))]
    unfold units
    rw [if_pos (h c (by simp))]
    rfl

theorem toNat_inj {c d : Char} (h : c.toNat = d.toNat) : c = d := by
  have := congrArg Char.ofNat h
  rwa [Char.ofNat_toNat, Char.ofNat_toNat] at this

/-- The label of a class. -/
def clsSym : Cls → Sym
  | .any => anyChar
  | .space => .chr ' '.toNat
  | .upper => anyUpper
  | .lower => anyLower

theorem clsSym_inj {k j : Cls} (h : clsSym k = clsSym j) : k = j := by
  revert h
  cases k <;> cases j <;> simp [clsSym, anyChar, anyUpper, anyLower]

theorem capsStep_eq (c : Char) : capsStep upper c.toNat = .plus (.inp (clsSym (clsOf upper c))) := by
  unfold capsStep clsOf
  by_cases e1 : c = '*'
  · rw [e1]; rfl
  · rw [if_neg (fun h => e1 (toNat_inj h)), if_neg e1]
    by_cases e2 : c = ' '
    · rw [e2]; rfl
    · rw [if_neg (fun h => e2 (toNat_inj h)), if_neg e2]
      split <;> rfl

theorem can_cls (k : Cls) {c : Char} (hc : c ≠ '\x00') : Can upper (.tok (.chr c)) (clsSym k) ↔ k.Has upper c := by
  have h0 : c.toNat ≠ 0 := fun h => hc (toNat_inj h)
  simp only [Can, if_neg h0]
  cases k with
  | any => simp [clsSym, Cls.Has, anyChar]
  | space =>
    simp only [clsSym, Cls.Has, anyChar, Sym.chr.injEq]
    constructor
    · rintro (h | h | h)
      · exact (toNat_inj h).symm
      · cases h
      · revert h; split <;> simp [anyUpper, anyLower]
    · rintro rfl; exact Or.inl rfl
  | upper =>
    cases hu : upper c.toNat <;> simp [clsSym, Cls.Has, anyChar, anyUpper, anyLower, hu]
  | lower =>
    cases hu : upper c.toNat <;> simp [clsSym, Cls.Has, anyChar, anyUpper, anyLower, hu]

def chars (t : Text) : List Rd := t.map (fun c => .tok (.chr c))

theorem chars_append_iff {t : Text} {x y : List Rd} : chars t = x ++ y ↔ ∃ a b, t = a ++ b ∧ x = chars a ∧ y = chars b := by
  unfold chars
  rw [List.map_eq_append_iff]
  constructor
  · rintro ⟨a, b, h1, h2, h3⟩; exact ⟨a, b, h1, h2.symm, h3.symm⟩
  · rintro ⟨a, b, h1, h2, h3⟩; exact ⟨a, b, h1, h2.symm, h3.symm⟩

theorem capsLang (spec : Text) (hs : Basic spec) (p : Option Cls) (t : Text) (ht : '\x00' ∉ t) :
    evLang upper (p.map (fun k => .inp (clsSym k))) (capsSteps upper spec) (chars t) ↔ Runs upper (squeeze p (spec.map (clsOf upper))) t := by
  unfold capsSteps
  rw [units_basic hs, List.map_map]
  clear hs
  induction spec generalizing p t with
  | nil =>
    simp only [List.map_nil, evLang, squeeze]
    constructor
    · intro h; rw [show t = [] from List.map_eq_nil_iff.1 h]; exact .nil
    · intro h; cases h; rfl
  | cons c spec ih =>
    rw [List.map_cons, List.map_cons, Function.comp_apply, capsStep_eq]
    generalize hk : clsOf upper c = k
    simp only [evLang, squeeze, evStep, afterStep]
    by_cases e : p = some k
    · subst e
      simp only [Option.map_some, if_pos]
      rw [← ih (some k) t ht]
      constructor
      · rintro ⟨x, y, h1, rfl, h3⟩
        rw [List.nil_append] at h1
        rw [h1]; exact h3
      · intro h; exact ⟨[], _, rfl, rfl, h⟩
    · have e' : ¬ (p.map (fun k => Lab.inp (clsSym k)) = some (.inp (clsSym k))) := by
        cases p with
        | none => simp
        | some j =>
          simp only [Option.map_some, Option.some.injEq, Lab.inp.injEq]
          exact fun h => e (by rw [clsSym_inj h])
      rw [if_neg e]
      simp only [if_neg e']
      constructor
      · rintro ⟨x, y, h1, ⟨h2, h3⟩, h4⟩
        obtain ⟨a, b, rfl, rfl, rfl⟩ := chars_append_iff.1 h1
        have hb := (ih (some k) b (fun h => ht (by simp [h]))).1 h4
        refine .cons (fun h => h2 (by rw [h]; rfl)) ?_ hb
        intro d hd
        exact (can_cls k (fun h => ht (by rw [← h]; simp [hd]))).1 (h3 _ (List.mem_map.2 ⟨d, hd, rfl⟩))
      · intro h
        cases h with
        | @cons _ _ r s h1 h2 h3 =>
          refine ⟨chars r, chars s, by simp [chars], ⟨fun h => h1 (List.map_eq_nil_iff.1 h), ?_⟩, (ih (some k) s (fun h => ht (by simp [h]))).2 h3⟩
          intro e he
          obtain ⟨d, hd, rfl⟩ := List.mem_map.1 he
          exact (can_cls k (fun h => ht (by rw [← h]; simp [hd]))).2 (h2 d hd)

theorem globStep_eq (c : Char) : globStep c.toNat = if c = '*' then .plus (.inp anyChar) else .one (.inp (.chr c.toNat)) := by
  unfold globStep
  by_cases e : c = '*'
  · rw [e]; rfl
  · rw [if_neg e, if_neg (fun h => e (toNat_inj h))]

theorem can_chr {c d : Char} (hc : c ≠ '\x00') : Can upper (.tok (.chr c)) (.chr d.toNat) ↔ c = d := by
  have h0 : c.toNat ≠ 0 := fun h => hc (toNat_inj h)
  simp only [Can, if_neg h0]
  constructor
  · rintro (h | h | h)
    · injection h with h; exact (toNat_inj h).symm
    · cases h
    · revert h; split <;> simp [anyUpper, anyLower]
  · rintro rfl; exact Or.inl rfl

theorem can_anyChar {c : Char} (hc : c ≠ '\x00') : Can upper (.tok (.chr c)) anyChar := (can_cls .any hc).2 trivial

theorem globLang (pat : Text) (hb : Basic pat) (hn : NoDouble pat) (l : Option Lab) (hl : l = none ∨ (l = some (.inp anyChar) ∧ pat.head? ≠ some '*')) (t : Text)
    (ht : '\x00' ∉ t) : evLang upper l (globSteps pat) (chars t) ↔ Glob pat t := by
  unfold globSteps
  rw [units_basic hb, List.map_map]
  clear hb
  induction pat generalizing l t with
  | nil =>
    simp only [List.map_nil, evLang]
    constructor
    · intro h; rw [show t = [] from List.map_eq_nil_iff.1 h]; exact .nil
    · intro h; cases h; rfl
  | cons c pat ih =>
    rw [List.map_cons, Function.comp_apply, globStep_eq]
    unfold evLang
    by_cases e : c = '*'
    · subst e
      rw [if_pos rfl]
      have hl' : l = none := by rcases hl with h | ⟨_, h⟩; exact h; simp at h
      subst hl'
      have h00 : ¬ ((none : Option Lab) = some (.inp anyChar)) := by simp
      simp only [evStep, afterStep, if_neg h00]
      have ih' := fun t ht => ih hn.2 (some (.inp anyChar)) (Or.inr ⟨rfl, hn.1 rfl⟩) t ht
      constructor
      · rintro ⟨x, y, h1, ⟨h2, h3⟩, h4⟩
        obtain ⟨a, b, rfl, rfl, rfl⟩ := chars_append_iff.1 h1
        exact .many (fun h => h2 (by rw [h]; rfl)) ((ih' b (fun h => ht (by simp [h]))).1 h4)
      · intro h
        cases h with
        | one h1 _ => exact absurd rfl h1
        | @many _ r s h1 h2 =>
          refine ⟨chars r, chars s, by simp [chars], ⟨fun h => h1 (List.map_eq_nil_iff.1 h), ?_⟩, (ih' s (fun h => ht (by simp [h]))).2 h2⟩
          intro e he
          obtain ⟨d, hd, rfl⟩ := List.mem_map.1 he
          exact can_anyChar (fun h => ht (by rw [← h]; simp [hd]))
    · rw [if_neg e]
      have hl' : l ≠ some (.inp (.chr c.toNat)) := by rcases hl with h | ⟨h, _⟩ <;> rw [h] <;> simp [anyChar]
      simp only [evStep, afterStep, if_neg hl']
      constructor
      · rintro ⟨x, y, h1, ⟨d, rfl, h3⟩, h4⟩
        obtain ⟨a, b, rfl, h5, rfl⟩ := chars_append_iff.1 h1
        unfold chars at h5
        obtain ⟨a', rfl⟩ : ∃ a', a = [a'] := by
          cases a with
          | nil => cases h5
          | cons a' a =>
            cases a with
            | nil => exact ⟨a', rfl⟩
            | cons _ _ => simp at h5
        simp only [List.map_cons, List.map_nil, List.cons.injEq, and_true] at h5
        subst h5
        rw [can_chr (fun h => ht (by simp [h]))] at h3
        subst h3
        exact .one e ((ih hn.2 none (Or.inl rfl) b (fun h => ht (by simp [h]))).1 h4)
      · intro h
        cases h with
        | @one _ _ s h1 h2 =>
          exact ⟨[.tok (.chr c)], chars s, rfl, ⟨_, rfl, (can_chr (fun h => ht (by simp [h]))).2 rfl⟩, (ih hn.2 none (Or.inl rfl) s (fun h => ht (by simp [h]))).2 h2⟩
        | many h1 h2 => exact absurd rfl e

end

end Verif.Crx
