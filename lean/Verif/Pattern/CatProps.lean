import Verif.Pattern.Cat
/-!
# The words that a category matches: proofs
-/
namespace Verif.Pattern
open Verif.Bil (Step)

theorem Reads.append {a c : List Step} {b d : List Sym} (h : Reads a b) (h' : Reads c d) : Reads (a ++ c) (b ++ d) := by
  induction h with
  | nil => exact h'
  | cons hc _ ih => exact .cons hc ih

theorem reach_of_path {E : List Edge} (hE : ∀ p q, (p, none, q) ∉ E) {p q : Nat} {s : List Sym} (h : Path E p s q) {es xs : List Step} (hr : Reads es s)
    (hp : Reach E p xs) : Reach E q (es.reverse ++ xs) := by
  induction h generalizing es xs with
  | nil => cases hr; exact hp
  | eps he _ _ => exact absurd he (hE _ _)
  | step he _ ih =>
    cases hr with
    | cons hc hr => simpa using ih hr (.step hp he hc)

theorem path_of_reach {E : List Edge} {q : Nat} {xs : List Step} (h : Reach E q xs) : ∃ s, Reads xs.reverse s ∧ Path E 0 s q := by
  induction h with
  | zero => exact ⟨[], .nil, .nil _⟩
  | @step p q a e es _ he hc ih =>
    obtain ⟨s, h1, h2⟩ := ih
    exact ⟨s ++ [a], by rw [List.reverse_cons]; exact h1.append (.cons hc .nil), h2.append (.step he (.nil _))⟩

/-- A transducer accepts a word. -/
def AcceptsWord (t : Trans) (es : List Step) : Prop := ∃ s, Reads es s ∧ t.Accepts s

theorem accepts_items (is : List CatItem) (hi : ∀ i ∈ is, i.Plain) (es : List Step) :
    AcceptsWord (is.foldl catItem {}) es ↔ ∃ i ∈ is, ELang i.label es.reverse := by
  obtain ⟨lab, h⟩ := items_inv is hi
  have hE : ∀ p q, (p, none, q) ∉ (is.foldl catItem {}).edges := by
    intro p q hx
    obtain ⟨s, h1, _⟩ := h.ok.edge p _ q hx
    cases h1
  constructor
  · rintro ⟨s, hr, f, hf, hp⟩
    rw [h.ok.init] at hp
    obtain ⟨_, i, h2, h3⟩ := h.sound f hf
    have := h.ok.sound (reach_of_path hE hp hr .zero)
    rw [List.append_nil, h3] at this
    exact ⟨i, h2, this⟩
  · rintro ⟨i, h1, h2⟩
    obtain ⟨f, h3, h4⟩ := h.complete i h1
    obtain ⟨s, h5, h6⟩ := path_of_reach (h.ok.reach f (h.sound f h3).1 _ (h4 ▸ h2))
    rw [List.reverse_reverse] at h5
    exact ⟨s, h5, f, h3, by rw [h.ok.init]; exact h6⟩

/-! ## Labels and patterns -/

theorem ELang.append {A B : List Elem} {x y : List Step} (h : ELang A x) (h' : ELang B y) : ELang (A ++ B) (x ++ y) := by
  induction h with
  | nil => exact h'
  | one hc _ ih => exact .one hc ih
  | first hc _ ih => exact .first hc ih
  | more hc _ ih => exact .more hc ih

theorem ELang.split {A B : List Elem} {es : List Step} (h : ELang (A ++ B) es) : ∃ x y, es = x ++ y ∧ ELang A x ∧ ELang B y := by
  generalize hX : A ++ B = X at h
  induction h generalizing A with
  | nil =>
    have := List.append_eq_nil_iff.1 hX
    exact ⟨[], [], rfl, this.1 ▸ .nil, this.2 ▸ .nil⟩
  | @one a e L es hc hl ih =>
    cases A with
    | nil => exact ⟨[], _, rfl, .nil, by rw [List.nil_append] at hX; exact hX ▸ .one hc hl⟩
    | cons c A =>
      injection hX with h1 h2
      obtain ⟨x, y, h3, h4, h5⟩ := ih h2
      exact ⟨e :: x, y, by rw [h3]; rfl, h1 ▸ .one hc h4, h5⟩
  | @first a e L es hc hl ih =>
    cases A with
    | nil => exact ⟨[], _, rfl, .nil, by rw [List.nil_append] at hX; exact hX ▸ .first hc hl⟩
    | cons c A =>
      injection hX with h1 h2
      obtain ⟨x, y, h3, h4, h5⟩ := ih h2
      exact ⟨e :: x, y, by rw [h3]; rfl, h1 ▸ .first hc h4, h5⟩
  | @more a e L es hc hl ih =>
    cases A with
    | nil => exact ⟨[], _, rfl, .nil, by rw [List.nil_append] at hX; exact hX ▸ .more hc hl⟩
    | cons c A =>
      obtain ⟨x, y, h3, h4, h5⟩ := ih hX
      injection hX with h1 h2
      subst h1
      exact ⟨e :: x, y, by rw [h3]; rfl, .more hc h4, h5⟩

theorem elang_one (a : Sym) (y : List Step) : ELang [.one a] y ↔ ∃ e, y = [e] ∧ Can e a := by
  constructor
  · intro h
    cases h with
    | one hc h => cases h; exact ⟨_, rfl, hc⟩
  · rintro ⟨e, rfl, hc⟩; exact .one hc .nil

theorem elang_many (a : Sym) (y : List Step) : ELang [.many a] y ↔ y ≠ [] ∧ ∀ e ∈ y, Can e a := by
  constructor
  · intro h
    generalize hL : [Elem.many a] = L at h
    induction h with
    | nil => cases hL
    | one => cases hL
    | first hc h =>
      injection hL with h1 h2
      injection h1 with h1
      subst h1
      subst h2
      cases h
      exact ⟨by simp, fun e he => by rw [List.mem_singleton.1 he]; exact hc⟩
    | more hc _ ih =>
      have := ih hL
      injection hL with h1 h2
      injection h1 with h1
      subst h1
      exact ⟨by simp, fun e he => by
        rcases List.mem_cons.1 he with rfl | he
        · exact hc
        · exact this.2 e he⟩
  · rintro ⟨h1, h2⟩
    induction y with
    | nil => exact absurd rfl h1
    | cons e y ih =>
      have hc := h2 e (by simp)
      by_cases hy : y = []
      · subst hy; exact .first hc .nil
      · exact .more hc (ih hy (fun e he => h2 e (by simp [he])))

/-- The elements of a pattern. -/
def elem {α : Type} (f : α → Sym) (any : Sym) : Option α → Elem
  | none => .many any
  | some a => .one (f a)

@[inherit_doc elem] def elems {α : Type} (f : α → Sym) (any : Sym) (p : List (Option α)) : List Elem := p.map (elem f any)

/-- Patterns read with `f` and `any` as labels match what they should, if the labels do. -/
theorem elang_glob {α : Type} (f : α → Sym) (any : Sym) (g : α → Step) (p : List (Option α)) (es : List Step) (P : Step → Prop) (hP : ∀ e ∈ es, P e)
    (hone : ∀ e a, P e → some a ∈ p → (Can e (f a) ↔ e = g a)) (hany : ∀ e, P e → (Can e any ↔ ∃ a, e = g a)) :
    ELang (elems f any p).reverse es.reverse ↔ ∃ s, es = s.map g ∧ Glob p s := by
  induction p generalizing es with
  | nil =>
    constructor
    · intro h
      generalize hx : es.reverse = x at h
      cases h
      exact ⟨[], by simpa using hx, .nil⟩
    · rintro ⟨s, rfl, h⟩
      cases h
      exact .nil
  | cons o p ih =>
    have ih := fun es hP => ih es hP (fun e a he ha => hone e a he (by simp [ha]))
    constructor
    · intro h
      have h : ELang ((elems f any p).reverse ++ [elem f any o]) es.reverse := by
        simpa only [elems, List.map_cons, List.reverse_cons] using h
      obtain ⟨x, y, h1, h2, h3⟩ := h.split
      have hes : es = y.reverse ++ x.reverse := by rw [← List.reverse_append, ← h1, List.reverse_reverse]
      have hx := (ih x.reverse (fun e he => hP e (by rw [hes]; simp at he; simp [he]))).1 (by rw [List.reverse_reverse]; exact h2)
      obtain ⟨s, hs1, hs2⟩ := hx
      have hy : ∀ e ∈ y, P e := fun e he => hP e (by rw [hes]; simp [he])
      cases o with
      | some a =>
        obtain ⟨e, rfl, hc⟩ := (elang_one _ _).1 h3
        have := (hone e a (hy e (by simp)) (by simp)).1 hc
        exact ⟨a :: s, by rw [hes, hs1, this]; rfl, .one hs2⟩
      | none =>
        obtain ⟨h4, h5⟩ := (elang_many _ _).1 h3
        have : ∃ r, y = List.map g r := by
          clear h1 h3 hes h4
          induction y with
          | nil => exact ⟨[], rfl⟩
          | cons e y ih =>
            obtain ⟨r, hr⟩ := ih (fun e he => hy e (by simp [he])) (fun e he => h5 e (by simp [he]))
            obtain ⟨a, ha⟩ := (hany e (hy e (by simp))).1 (h5 e (by simp))
            exact ⟨a :: r, by rw [ha, hr]; rfl⟩
        obtain ⟨r, rfl⟩ := this
        refine ⟨r.reverse ++ s, by rw [hes, hs1]; simp, .many (fun hr => h4 ?_) hs2⟩
        simp at hr
        rw [hr]; rfl
    · rintro ⟨s, rfl, h⟩
      have hgoal : (elems f any (o :: p)).reverse = (elems f any p).reverse ++ [elem f any o] := by
        simp only [elems, List.map_cons, List.reverse_cons]
      rw [hgoal]
      cases h with
      | @one a p s h =>
        rw [List.map_cons, List.reverse_cons]
        have h1 := (ih (s.map g) (fun e he => hP e (by simp at he ⊢; exact Or.inr he))).2 ⟨s, rfl, h⟩
        exact h1.append ((elang_one _ _).2 ⟨_, rfl, (hone _ a (hP _ (by simp)) (by simp)).2 rfl⟩)
      | @many p r s hr h =>
        rw [List.map_append, List.reverse_append]
        have h1 := (ih (s.map g) (fun e he => hP e (by simp at he ⊢; exact Or.inr he))).2 ⟨s, rfl, h⟩
        refine h1.append ((elang_many _ _).2 ⟨by simpa using hr, fun e he => ?_⟩)
        simp only [List.mem_reverse, List.mem_map] at he
        obtain ⟨a, ha, rfl⟩ := he
        exact (hany _ (hP _ (by simp; exact Or.inl ⟨a, ha, rfl⟩))).2 ⟨a, rfl⟩

/-- The last element is not a star (with the label `any`). -/
def NotStar (any : Sym) (L : List Elem) : Prop := ∀ K, L ≠ .many any :: K

theorem pushMany_ne {s : Sym} {L : List Elem} (h : NotStar s L) : pushMany s L = .many s :: L := by
  rcases pushMany_cases s L with ⟨K, h1, _⟩ | ⟨_, h2⟩
  · exact absurd h1 (h K)
  · exact h2

theorem NoDouble.tail {α : Type} {o : Option α} {p : List (Option α)} (h : NoDouble (o :: p)) : NoDouble p := by
  cases o with
  | some a => exact h
  | none =>
    cases p with
    | nil => trivial
    | cons o' p =>
      cases o' with
      | none => exact h.elim
      | some a => exact h

/-- Without two stars in a row, the label is the pattern backwards. -/
theorem foldl_push {α β : Type} (f : β → Sym) (any : Sym) (push : List Elem → α → List Elem) (pat : α → Option β)
    (hpush : ∀ L a, push L a = match pat a with | none => pushMany any L | some b => .one (f b) :: L)
    (l : List α) (L : List Elem) (hd : NoDouble (l.map pat)) (hL : NotStar any L ∨ (l.map pat).head? ≠ some none) :
    l.foldl push L = (elems f any (l.map pat)).reverse ++ L := by
  induction l generalizing L with
  | nil => rfl
  | cons a l ih =>
    rw [List.foldl_cons, hpush]
    simp only [List.map_cons] at hd hL ⊢
    cases hp : pat a with
    | some b =>
      rw [hp] at hd
      dsimp only
      rw [ih _ hd.tail (Or.inl (fun K e => by cases e))]
      simp [elems, elem]
    | none =>
      rw [hp] at hd hL
      have hN : NotStar any L := by
        rcases hL with h | h
        · exact h
        · simp at h
      dsimp only
      rw [pushMany_ne hN, ih _ hd.tail]
      · simp [elems, elem]
      · right
        cases hl : l.map pat with
        | nil => simp
        | cons o p =>
          rw [hl] at hd
          cases o with
          | none => exact hd.elim
          | some b => simp

/-- What the lemma of an item makes. -/
theorem lemma_label (l : Text) (hd : NoDouble (lemmaPat l)) :
    (if l = [] then [.many anyChar] else l.foldl pushChar []) = (elems Sym.chr anyChar (lemmaPat l)).reverse := by
  unfold lemmaPat at *
  split
  · rename_i h; simp [elems, elem]
  · rename_i h
    rw [if_neg h] at hd
    have := foldl_push Sym.chr anyChar pushChar (fun c : Char => if c = '*' then none else some c)
      (fun L c => by unfold pushChar; by_cases hc : c = '*' <;> simp [hc]) l [] hd (Or.inl (fun K e => by cases e))
    rw [this, List.append_nil]

theorem elems_notStar {p : List (Option Char)} (L : List Elem) (h : L = (elems Sym.chr anyChar p).reverse) : NotStar anyTag L := by
  intro K e
  have hm : Elem.many anyTag ∈ L := by rw [e]; simp
  rw [h, List.mem_reverse] at hm
  simp only [elems, List.mem_map] at hm
  obtain ⟨o, _, ho⟩ := hm
  cases o with
  | none => simp [anyTag, anyChar, elem] at ho
  | some a => simp [elem] at ho

theorem itemLab_eq (l : Text) (ts : List Text) (hl : NoDouble (lemmaPat l)) (ht : NoDouble (tagsPat ts)) :
    itemLab l ts = (elems Sym.tag anyTag (tagsPat ts)).reverse ++ (elems Sym.chr anyChar (lemmaPat l)).reverse := by
  unfold itemLab
  rw [lemma_label l hl]
  exact foldl_push Sym.tag anyTag pushTag (fun t : Text => if t = t!"*" then none else some (t!"<" ++ t ++ t!">"))
    (fun L t => by
      unfold pushTag
      by_cases hc : t = t!"*"
      · rw [if_pos hc, if_pos hc]
      · rw [if_neg hc, if_neg hc]) ts _ ht (Or.inl (elems_notStar _ rfl))

theorem can_anyChar {e : Step} (he : e ≠ .tag t!"<ANY_CHAR>") : Can e anyChar ↔ ∃ c, e = .char c := by
  cases e with
  | char c => exact ⟨fun _ => ⟨c, rfl⟩, fun _ => Or.inr rfl⟩
  | tag t =>
    constructor
    · rintro (h | h)
      · injection h with h; rw [← h] at he; exact absurd rfl he
      · simp [anyTag, anyChar] at h
    · rintro ⟨c, h⟩; cases h

theorem can_anyTag {e : Step} : Can e anyTag ↔ ∃ t, e = .tag t := by
  cases e with
  | char c =>
    constructor
    · rintro (h | h) <;> simp [anyTag, anyChar] at h
    · rintro ⟨c, h⟩; cases h
  | tag t => exact ⟨fun _ => ⟨t, rfl⟩, fun _ => Or.inr rfl⟩

theorem can_tag {e : Step} {t : Text} (h : ¬ AnySym (.tag t)) : Can e (.tag t) ↔ e = .tag t := by
  cases e with
  | char c =>
    constructor
    · rintro (h' | h')
      · cases h'
      · exact absurd (Or.inr h') h
    · intro h; cases h
  | tag u =>
    constructor
    · rintro (h' | h')
      · injection h' with h'; rw [h']
      · exact absurd (Or.inl h') h
    · intro h; injection h with h; exact Or.inl (by rw [h])

theorem elang_item (l : Text) (ts : List Text) (hl : NoDouble (lemmaPat l)) (ht : NoDouble (tagsPat ts)) (h1 : t!"ANY_TAG" ∉ ts) (h2 : t!"ANY_CHAR" ∉ ts)
    (es : List Step) (he : .tag t!"<ANY_CHAR>" ∉ es) :
    ELang (itemLab l ts) es.reverse ↔ ∃ w : Word, es = w.events ∧ Glob (lemmaPat l) w.lem ∧ Glob (tagsPat ts) w.tags := by
  rw [itemLab_eq l ts hl ht]
  have hlem : ∀ es : List Step, .tag t!"<ANY_CHAR>" ∉ es → (ELang (elems Sym.chr anyChar (lemmaPat l)).reverse es.reverse ↔ ∃ s, es = s.map Step.char ∧ Glob (lemmaPat l) s) :=
    fun es he => elang_glob Sym.chr anyChar Step.char (lemmaPat l) es (fun e => e ≠ .tag t!"<ANY_CHAR>") (fun e h h' => he (h' ▸ h))
      (fun e a _ _ => ⟨can_chr, fun h => by rw [h]; exact Or.inl rfl⟩) (fun e h => can_anyChar h)
  have htag : ∀ es : List Step, ELang (elems Sym.tag anyTag (tagsPat ts)).reverse es.reverse ↔ ∃ s, es = s.map Step.tag ∧ Glob (tagsPat ts) s :=
    fun es => elang_glob Sym.tag anyTag Step.tag (tagsPat ts) es (fun _ => True) (fun _ _ => trivial)
      (fun e a _ ha => can_tag (by
        simp only [tagsPat, List.mem_map] at ha
        obtain ⟨t, ht, hx⟩ := ha
        split at hx
        · cases hx
        · injection hx with hx
          rw [← hx]
          exact not_any_tag t (fun e => h1 (e ▸ ht)) (fun e => h2 (e ▸ ht)))) (fun e _ => can_anyTag)
  constructor
  · intro h
    obtain ⟨x, y, h3, h4, h5⟩ := h.split
    have hes : es = y.reverse ++ x.reverse := by rw [← List.reverse_append, ← h3, List.reverse_reverse]
    obtain ⟨s, hs1, hs2⟩ := (hlem y.reverse (fun h => he (by rw [hes]; exact List.mem_append_left _ h))).1 (by rw [List.reverse_reverse]; exact h5)
    obtain ⟨t, ht1, ht2⟩ := (htag x.reverse).1 (by rw [List.reverse_reverse]; exact h4)
    exact ⟨⟨s, t⟩, by rw [hes, hs1, ht1]; rfl, hs2, ht2⟩
  · rintro ⟨w, rfl, h3, h4⟩
    unfold Word.events at *
    rw [List.reverse_append]
    exact ((htag _).2 ⟨_, rfl, h4⟩).append ((hlem _ (fun h => he (List.mem_append_left _ h))).2 ⟨_, rfl, h3⟩)

/-- **C72, categories.** The transducer of a category accepts exactly the words that fit one of its items. -/
theorem C72_category_partial (minimize : Trans → Trans) (hm : ∀ t, Minimal t (minimize t)) (is : List CatItem) (hi : ∀ i ∈ is, i.Plain) (es : List Step)
    (he : .tag t!"<ANY_CHAR>" ∉ es) : AcceptsWord (defCat minimize is) es ↔ ∃ i ∈ is, ∃ w : Word, es = w.events ∧ i.Fits w := by
  have h1 : AcceptsWord (defCat minimize is) es ↔ AcceptsWord (is.foldl catItem {}) es := by
    simp only [AcceptsWord, defCat, (hm _).same]
  rw [h1, accepts_items is hi]
  constructor
  · rintro ⟨i, h2, h3⟩
    have hp := hi i h2
    unfold CatItem.label at h3
    unfold CatItem.Fits
    split at h3
    · rename_i hx
      obtain ⟨w, h4, h5⟩ := (elang_item _ _ hp.lem.2.2 hp.tags.1 hp.tags.2.1 hp.tags.2.2 es he).1 h3
      exact ⟨i, h2, w, h4, by rw [if_pos hx]; exact h5⟩
    · rename_i hx
      obtain ⟨w, h4, h5, h6⟩ := (elang_item _ [] hp.name.2.2 trivial (by simp) (by simp) es he).1 h3
      have h7 : w.tags = [] := by
        generalize w.tags = u at h6
        cases h6
        rfl
      exact ⟨i, h2, w, h4, by rw [if_neg hx]; exact ⟨h5, h7⟩⟩
  · rintro ⟨i, h2, w, h4, h5⟩
    have hp := hi i h2
    refine ⟨i, h2, ?_⟩
    unfold CatItem.label
    unfold CatItem.Fits at h5
    split at h5
    · rename_i hx
      rw [if_pos hx]
      exact (elang_item _ _ hp.lem.2.2 hp.tags.1 hp.tags.2.1 hp.tags.2.2 es he).2 ⟨w, h4, h5⟩
    · rename_i hx
      rw [if_neg hx]
      exact (elang_item _ [] hp.name.2.2 trivial (by simp) (by simp) es he).2 ⟨w, h4, h5.1, by rw [h5.2]; exact .nil⟩

end Verif.Pattern
