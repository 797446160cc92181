import Verif.Pattern.Auto
/-!
# The words that a category matches
-/
namespace Verif.Pattern
open Verif.Bil (Step)

/-- A thing read in a word can follow an edge. -/
def Can : Step → Sym → Prop
  | .char c, a => a = .chr c ∨ a = anyChar
  | .tag t, a => a = .tag t ∨ a = anyTag

/-- … and a sequence of them a path. -/
inductive Reads : List Step → List Sym → Prop where
  | nil : Reads [] []
  | cons {e : Step} {a : Sym} {es : List Step} {s : List Sym} : Can e a → Reads es s → Reads (e :: es) (a :: s)

/-- An element of an item. -/
inductive Elem where
  | one (a : Sym)
  | many (a : Sym)

/-- What the elements match; both lists backwards. -/
inductive ELang : List Elem → List Step → Prop where
  | nil : ELang [] []
  | one {a : Sym} {e : Step} {L : List Elem} {es : List Step} : Can e a → ELang L es → ELang (.one a :: L) (e :: es)
  | first {a : Sym} {e : Step} {L : List Elem} {es : List Step} : Can e a → ELang L es → ELang (.many a :: L) (e :: es)
  | more {a : Sym} {e : Step} {L : List Elem} {es : List Step} : Can e a → ELang (.many a :: L) es → ELang (.many a :: L) (e :: es)

/-- A state is reached from 0; what is read is backwards. -/
inductive Reach (E : List Edge) : Nat → List Step → Prop where
  | zero : Reach E 0 []
  | step {p q : Nat} {a : Sym} {e : Step} {es : List Step} : Reach E p es → (p, some a, q) ∈ E → Can e a → Reach E q (e :: es)

theorem Reach.mono {E E' : List Edge} (hE : ∀ e ∈ E, e ∈ E') {q : Nat} {es : List Step} (h : Reach E q es) : Reach E' q es := by
  induction h with
  | zero => exact .zero
  | step _ he hc ih => exact .step ih (hE _ he) hc

def AnySym (a : Sym) : Prop := a = anyTag ∨ a = anyChar

instance (a : Sym) : Decidable (AnySym a) := by unfold AnySym; infer_instance

/-- The label of the state after a backslash. -/
def escLab : List Elem := [.one (.chr '\\'), .many anyChar]

/-- What the edges may be. -/
inductive EdgeOk (lab : Nat → List Elem) (p q : Nat) (s : Sym) : Prop where
  | one : ¬ AnySym s → lab q = .one s :: lab p → EdgeOk lab p q s
  | many : AnySym s → lab q = .many s :: lab p → (∀ K, lab p ≠ .many s :: K) → EdgeOk lab p q s
  | loop (L : List Elem) : AnySym s → q = p → lab p = .many s :: L → EdgeOk lab p q s
  | esc : s = anyChar → lab p = escLab → lab q = [.many anyChar] → EdgeOk lab p q s

/-- The states are labelled with what leads to them. -/
structure Lab (t : Trans) (lab : Nat → List Elem) : Prop where
  pos : 0 < t.next
  init : t.initial = 0
  zero : lab 0 = []
  wf : ∀ e ∈ t.edges, e.1 < t.next ∧ e.2.2 < t.next
  edge : ∀ p a q, (p, a, q) ∈ t.edges → ∃ s, a = some s ∧ EdgeOk lab p q s
  reach : ∀ q, q < t.next → ∀ es, ELang (lab q) es → Reach t.edges q es
  loops : ∀ p, p < t.next → ∀ s K, lab p = .many s :: K → (p, some s, p) ∈ t.edges

theorem can_chr {e : Step} {c : Char} (h : Can e (.chr c)) : e = .char c := by
  cases e with
  | char d => rcases h with h | h <;> simp [anyChar] at h; rw [h]
  | tag t => rcases h with h | h <;> simp [anyTag] at h

theorem Lab.sound {t : Trans} {lab : Nat → List Elem} (h : Lab t lab) {q : Nat} {es : List Step} (hr : Reach t.edges q es) : ELang (lab q) es := by
  induction hr with
  | zero => rw [h.zero]; exact .nil
  | @step p q a e es _ he hc ih =>
    obtain ⟨s, hs, hk⟩ := h.edge p _ q he
    injection hs with hs
    subst hs
    cases hk with
    | one _ hq => rw [hq]; exact .one hc ih
    | many _ hq _ => rw [hq]; exact .first hc ih
    | loop L _ hq hp => subst hq; rw [hp] at ih ⊢; exact .more hc ih
    | esc hs hp hq =>
      subst hs
      rw [hp] at ih
      rw [hq]
      cases ih with
      | one hc' ih =>
        rw [can_chr hc'] at *
        exact .more hc (.more (Or.inr rfl) ih)

theorem insertSingle_cases (t : Trans) (a : Option Sym) (p : Nat) :
    (∃ q, (p, a, q) ∈ t.edges ∧ insertSingle t a p = (t, q)) ∨
    ((∀ q, (p, a, q) ∉ t.edges) ∧ insertSingle t a p = ({ t with next := t.next + 1, edges := t.edges ++ [(p, a, t.next)] }, t.next)) := by
  unfold insertSingle
  cases h : t.edges.find? (fun e => decide (e.1 = p ∧ e.2.1 = a)) with
  | some e =>
    left
    have h1 := List.find?_some h
    have h2 := List.mem_of_find?_eq_some h
    simp only [decide_eq_true_eq] at h1
    obtain ⟨e1, e2, e3⟩ := e
    obtain ⟨rfl, rfl⟩ := h1
    exact ⟨e3, h2, rfl⟩
  | none =>
    right
    refine ⟨fun q hq => ?_, rfl⟩
    have := List.find?_eq_none.1 h _ hq
    simp at this

theorem Lab.link {t : Trans} {lab : Nat → List Elem} (h : Lab t lab) (p q : Nat) (s : Sym) (hp : p < t.next) (hq : q < t.next) (hk : EdgeOk lab p q s) :
    Lab (link t p q (some s)) lab := by
  unfold Pattern.link
  split
  · exact h
  · exact {
      pos := h.pos, init := h.init, zero := h.zero,
      wf := fun e he => by
        rcases List.mem_append.1 he with he | he
        · exact h.wf e he
        · rw [List.mem_singleton.1 he]; exact ⟨hp, hq⟩
      edge := fun p' a q' he => by
        rcases List.mem_append.1 he with he | he
        · exact h.edge p' a q' he
        · simp only [List.mem_singleton, Prod.mk.injEq] at he
          obtain ⟨rfl, rfl, rfl⟩ := he
          exact ⟨s, rfl, hk⟩
      reach := fun x hx es he => (h.reach x hx es he).mono (fun e he => List.mem_append_left _ he)
      loops := fun x hx s K he => List.mem_append_left _ (h.loops x hx s K he) }

def setLab (lab : Nat → List Elem) (n : Nat) (L : List Elem) : Nat → List Elem := fun q => if q = n then L else lab q

theorem setLab_eq (lab : Nat → List Elem) (n : Nat) (L : List Elem) : setLab lab n L n = L := if_pos rfl
theorem setLab_ne (lab : Nat → List Elem) (n : Nat) (L : List Elem) {q : Nat} (h : q ≠ n) : setLab lab n L q = lab q := if_neg h

theorem EdgeOk.set {lab : Nat → List Elem} {p q n : Nat} {s : Sym} (h : EdgeOk lab p q s) (L : List Elem) (hp : p ≠ n) (hq : q ≠ n) :
    EdgeOk (setLab lab n L) p q s := by
  cases h with
  | one h1 h2 => exact .one h1 (by rw [setLab_ne _ _ _ hp, setLab_ne _ _ _ hq, h2])
  | many h1 h2 h3 => exact .many h1 (by rw [setLab_ne _ _ _ hp, setLab_ne _ _ _ hq, h2]) (by rw [setLab_ne _ _ _ hp]; exact h3)
  | loop K h1 h2 h3 => exact .loop K h1 h2 (by rw [setLab_ne _ _ _ hp, h3])
  | esc h1 h2 h3 => exact .esc h1 (by rw [setLab_ne _ _ _ hp, h2]) (by rw [setLab_ne _ _ _ hq, h3])

/-- A new state with some edges to it. -/
theorem Lab.new {t : Trans} {lab : Nat → List Elem} (h : Lab t lab) (L : List Elem) (es : List Edge)
    (he : ∀ e ∈ es, e.1 < t.next + 1 ∧ e.2.2 = t.next ∧ ∃ s, e.2.1 = some s ∧ EdgeOk (setLab lab t.next L) e.1 t.next s)
    (hl : ∀ s K, L = .many s :: K → (t.next, some s, t.next) ∈ es)
    (hr : ∀ E, (∀ e ∈ t.edges, e ∈ E) → (∀ e ∈ es, e ∈ E) → ∀ x, ELang L x → Reach E t.next x) :
    Lab { t with next := t.next + 1, edges := t.edges ++ es } (setLab lab t.next L) where
  pos := by dsimp; omega
  init := h.init
  zero := by rw [setLab_ne _ _ _ (by have := h.pos; omega)]; exact h.zero
  wf e hx := by
    dsimp
    rcases List.mem_append.1 hx with hx | hx
    · have := h.wf e hx; omega
    · have := he e hx; omega
  edge p a q hx := by
    rcases List.mem_append.1 hx with hx | hx
    · obtain ⟨s, h1, h2⟩ := h.edge p a q hx
      have := h.wf _ hx
      dsimp at this
      exact ⟨s, h1, h2.set L (by omega) (by omega)⟩
    · obtain ⟨_, h2, s, h3, h4⟩ := he _ hx
      dsimp at h2
      subst h2
      exact ⟨s, h3, h4⟩
  reach q hq x hx := by
    by_cases e : q = t.next
    · subst e
      rw [setLab_eq] at hx
      exact hr _ (fun e he => List.mem_append_left _ he) (fun e he => List.mem_append_right _ he) x hx
    · rw [setLab_ne _ _ _ e] at hx
      dsimp at hq
      exact (h.reach q (by omega) x hx).mono (fun e he => List.mem_append_left _ he)
  loops q hq s K hx := by
    by_cases e : q = t.next
    · subst e
      rw [setLab_eq] at hx
      exact List.mem_append_right _ (hl s K hx)
    · rw [setLab_ne _ _ _ e] at hx
      dsimp at hq
      exact List.mem_append_left _ (h.loops q (by omega) s K hx)

/-- What an insertion gives: a state with this label, and the rest as it was. -/
structure Grown (t : Trans) (lab : Nat → List Elem) (x : Trans × Nat) (L : List Elem) (lab' : Nat → List Elem) : Prop where
  ok : Lab x.1 lab'
  old : ∀ q, q < t.next → lab' q = lab q
  lt : x.2 < x.1.next
  label : lab' x.2 = L
  next : t.next ≤ x.1.next
  finals : x.1.finals = t.finals

theorem Lab.one {t : Trans} {lab : Nat → List Elem} (h : Lab t lab) (p : Nat) (hp : p < t.next) (s : Sym) (hs : ¬ AnySym s) :
    ∃ lab', Grown t lab (insertSingle t (some s) p) (.one s :: lab p) lab' := by
  rcases insertSingle_cases t (some s) p with ⟨q, hq, e⟩ | ⟨_, e⟩
  · rw [e]
    obtain ⟨s', h1, h2⟩ := h.edge p _ q hq
    injection h1 with h1
    subst h1
    have hl : lab q = .one s :: lab p := by
      cases h2 with
      | one _ h => exact h
      | many h _ _ => exact absurd h hs
      | loop _ h _ _ => exact absurd h hs
      | esc h _ _ => exact absurd (Or.inr h) hs
    exact ⟨lab, h, fun _ _ => rfl, (h.wf _ hq).2, hl, Nat.le_refl _, rfl⟩
  · rw [e]
    have hpn : p ≠ t.next := by omega
    refine ⟨setLab lab t.next (.one s :: lab p), h.new _ _ ?_ (fun _ _ hx => by cases hx) ?_, fun q hq => setLab_ne _ _ _ (by omega), by dsimp; omega, setLab_eq _ _ _, by dsimp; omega, rfl⟩
    · intro e he
      rw [List.mem_singleton.1 he]
      exact ⟨by dsimp; omega, rfl, s, rfl, .one hs (by rw [setLab_eq, setLab_ne _ _ _ hpn])⟩
    · intro E h1 h2 x hx
      cases hx with
      | one hc hx => exact .step ((h.reach p hp _ hx).mono h1) (h2 _ (by simp)) hc

/-- One more element: two equal stars are one. -/
def pushMany (s : Sym) : List Elem → List Elem
  | .many a :: L => if a = s then .many a :: L else .many s :: .many a :: L
  | L => .many s :: L

theorem pushMany_cases (s : Sym) (L : List Elem) : (∃ K, L = .many s :: K ∧ pushMany s L = L) ∨ ((∀ K, L ≠ .many s :: K) ∧ pushMany s L = .many s :: L) := by
  unfold pushMany
  split
  · rename_i a K
    split
    · rename_i h; left; exact ⟨K, by rw [h], rfl⟩
    · rename_i h; right; exact ⟨fun K' e => by injection e with e _; injection e with e; exact h e, rfl⟩
  · rename_i h
    right
    exact ⟨fun K e => h s K e, rfl⟩

theorem Lab.many {t : Trans} {lab : Nat → List Elem} (h : Lab t lab) (p : Nat) (hp : p < t.next) (s : Sym) (hs : AnySym s) (hesc : s = anyChar → lab p ≠ escLab) :
    ∃ lab', Grown t lab (insertLoop (t, p) s) (pushMany s (lab p)) lab' := by
  unfold insertLoop
  dsimp only
  rcases insertSingle_cases t (some s) p with ⟨q, hq, e⟩ | ⟨hno, e⟩
  · rw [e]
    dsimp only
    have hq2 := (h.wf _ hq).2
    dsimp only at hq2
    obtain ⟨s', h1, h2⟩ := h.edge p _ q hq
    injection h1 with h1
    subst h1
    have hx : lab q = pushMany s (lab p) ∧ ∃ K, lab q = .many s :: K := by
      cases h2 with
      | one h _ => exact absurd hs h
      | many _ h' h3 =>
        rcases pushMany_cases s (lab p) with ⟨K, h1, _⟩ | ⟨_, h2⟩
        · exact absurd h1 (h3 K)
        · exact ⟨by rw [h2, h'], _, h'⟩
      | loop L _ hq hl =>
        subst hq
        rcases pushMany_cases s (lab q) with ⟨K, h1, h2⟩ | ⟨h1, h2⟩
        · exact ⟨h2.symm, L, hl⟩
        · exact absurd hl (h1 L)
      | esc h1 h2 _ => exact absurd h2 (hesc h1)
    obtain ⟨hx, K, hK⟩ := hx
    exact ⟨lab, h.link q q s hq2 hq2 (.loop K hs rfl hK), fun _ _ => rfl, by unfold Pattern.link; split <;> exact hq2, hx,
      by unfold Pattern.link; split <;> exact Nat.le_refl _, by unfold Pattern.link; split <;> rfl⟩
  · rw [e]
    have hpn : p ≠ t.next := by omega
    have hK : ∀ K, lab p ≠ .many s :: K := fun K hK => hno p (h.loops p hp s K hK)
    have hpush : pushMany s (lab p) = .many s :: lab p := by
      rcases pushMany_cases s (lab p) with ⟨K, h1, _⟩ | ⟨_, h2⟩
      · exact absurd h1 (hK K)
      · exact h2
    have hnew : (t.next, some s, t.next) ∉ t.edges ++ [(p, some s, t.next)] := by
      intro hx
      rcases List.mem_append.1 hx with hx | hx
      · have := (h.wf _ hx).1; dsimp at this; omega
      · simp at hx; omega
    have hlink : Pattern.link { t with next := t.next + 1, edges := t.edges ++ [(p, some s, t.next)] } t.next t.next (some s) =
        { t with next := t.next + 1, edges := t.edges ++ [(p, some s, t.next), (t.next, some s, t.next)] } := by
      unfold Pattern.link
      rw [if_neg hnew]
      simp
    dsimp only
    rw [hlink, hpush]
    refine ⟨setLab lab t.next (.many s :: lab p), h.new _ _ ?_ ?_ ?_, fun q hq => setLab_ne _ _ _ (by omega), by dsimp; omega, setLab_eq _ _ _, by dsimp; omega, rfl⟩
    · intro e he
      simp only [List.mem_cons, List.not_mem_nil, or_false] at he
      rcases he with rfl | rfl
      · exact ⟨by dsimp; omega, rfl, s, rfl, .many hs (by rw [setLab_eq, setLab_ne _ _ _ hpn]) (by rw [setLab_ne _ _ _ hpn]; exact hK)⟩
      · exact ⟨by dsimp; omega, rfl, s, rfl, .loop (lab p) hs rfl (setLab_eq _ _ _)⟩
    · intro s' K hx
      injection hx with hx _
      injection hx with hx
      simp [hx]
    · intro E h1 h2 x hx
      generalize hL : Elem.many s :: lab p = L at hx
      induction hx with
      | nil => cases hL
      | one => cases hL
      | first hc hx =>
        injection hL with h3 h4
        injection h3 with h3
        subst h3
        rw [← h4] at hx
        exact .step ((h.reach p hp _ hx).mono h1) (h2 _ (by simp)) hc
      | more hc _ ih =>
        injection hL with h3 h4
        injection h3 with h3
        subst h3
        exact .step (ih (by rw [h4])) (h2 _ (by simp)) hc

theorem Grown.trans {t : Trans} {lab lab' lab'' : Nat → List Elem} {x y : Trans × Nat} {L K : List Elem} (h : Grown t lab x L lab') (h' : Grown x.1 lab' y K lab'') :
    Grown t lab y K lab'' where
  ok := h'.ok
  old q hq := by rw [h'.old q (Nat.lt_of_lt_of_le hq h.next), h.old q hq]
  lt := h'.lt
  label := h'.label
  next := Nat.le_trans h.next h'.next
  finals := h'.finals.trans h.finals

theorem Lab.grown {t : Trans} {lab : Nat → List Elem} (h : Lab t lab) (p : Nat) (hp : p < t.next) : Grown t lab (t, p) (lab p) lab :=
  ⟨h, fun _ _ => rfl, hp, rfl, Nat.le_refl _, rfl⟩

/-- The label after a character of a lemma. -/
def pushChar (L : List Elem) (c : Char) : List Elem := if c = '*' then pushMany anyChar L else .one (.chr c) :: L

/-- The label after a tag. -/
def pushTag (L : List Elem) (t : Text) : List Elem := if t = t!"*" then pushMany anyTag L else .one (.tag (t!"<" ++ t ++ t!">")) :: L

theorem pushMany_esc (s : Sym) (L : List Elem) : pushMany s L ≠ escLab := by
  rcases pushMany_cases s L with ⟨K, h1, h2⟩ | ⟨_, h2⟩ <;> rw [h2]
  · rw [h1]; simp [escLab]
  · simp [escLab]

theorem not_any_chr (c : Char) : ¬ AnySym (.chr c) := by simp [AnySym, anyTag, anyChar]

theorem grown_lemma (l : Text) (hl : '\\' ∉ l) {t : Trans} {lab : Nat → List Elem} (x : Trans × Nat) (L : List Elem) (h : Grown t lab x L lab') (hL : L ≠ escLab) :
    ∃ lab'', Grown t lab (insertLemma l x) (l.foldl pushChar L) lab'' := by
  induction l generalizing x L lab' with
  | nil => exact ⟨lab', h⟩
  | cons c l ih =>
    simp only [List.mem_cons, not_or] at hl
    rw [insertLemma.eq_def]
    simp only [if_neg (Ne.symm hl.1), List.foldl_cons]
    split
    · rename_i hc
      obtain ⟨lab2, h2⟩ := h.ok.many x.2 h.lt anyChar (Or.inr rfl) (fun _ => by rw [h.label]; exact hL)
      rw [h.label] at h2
      have : pushChar L c = pushMany anyChar L := by simp [pushChar, hc]
      rw [this]
      exact ih hl.2 _ _ (h.trans h2) (pushMany_esc _ _)
    · rename_i hc
      obtain ⟨lab2, h2⟩ := h.ok.one x.2 h.lt (.chr c) (not_any_chr c)
      rw [h.label] at h2
      have : pushChar L c = .one (.chr c) :: L := by simp [pushChar, hc]
      rw [this]
      exact ih hl.2 _ _ (h.trans h2) (fun e => by
        injection e with e _
        injection e with e
        injection e with e
        exact hl.1 e.symm)

theorem not_any_tag (t : Text) (h1 : t ≠ t!"ANY_TAG") (h2 : t ≠ t!"ANY_CHAR") : ¬ AnySym (.tag (t!"<" ++ t ++ t!">")) := by
  have key : ∀ u : Text, t!"<" ++ t ++ t!">" = t!"<" ++ u ++ t!">" → t = u := fun u h => by simpa using h
  rintro (h | h)
  · injection h with h; exact h1 (key t!"ANY_TAG" h)
  · injection h with h; exact h2 (key t!"ANY_CHAR" h)

theorem grown_tags (ts : List Text) (h1 : t!"ANY_TAG" ∉ ts) (h2 : t!"ANY_CHAR" ∉ ts) {t : Trans} {lab : Nat → List Elem} (x : Trans × Nat) (L : List Elem)
    (h : Grown t lab x L lab') : ∃ lab'', Grown t lab (insertTags ts x) (ts.foldl pushTag L) lab'' := by
  induction ts generalizing x L lab' with
  | nil => exact ⟨lab', h⟩
  | cons c l ih =>
    simp only [List.mem_cons, not_or] at h1 h2
    rw [insertTags.eq_def]
    simp only [List.foldl_cons]
    split
    · rename_i hc
      obtain ⟨lab2, h3⟩ := h.ok.many x.2 h.lt anyTag (Or.inl rfl) (fun e => by simp [anyTag, anyChar] at e)
      rw [h.label] at h3
      have : pushTag L c = pushMany anyTag L := by simp [pushTag, hc]
      rw [this]
      exact ih h1.2 h2.2 _ _ (h.trans h3)
    · rename_i hc
      obtain ⟨lab2, h3⟩ := h.ok.one x.2 h.lt _ (not_any_tag c (Ne.symm h1.1) (Ne.symm h2.1))
      rw [h.label] at h3
      have : pushTag L c = .one (.tag (t!"<" ++ c ++ t!">")) :: L := by simp only [pushTag, if_neg hc]
      rw [this]
      exact ih h1.2 h2.2 _ _ (h.trans h3)

theorem grown_any {t : Trans} {lab : Nat → List Elem} (h : Lab t lab) : ∃ lab', Grown t lab (insertAnyLemma (t, 0)) [.many anyChar] lab' := by
  obtain ⟨lab1, h1⟩ := h.many 0 h.pos anyChar (Or.inr rfl) (fun _ => by rw [h.zero]; simp [escLab])
  have e : pushMany anyChar (lab 0) = [.many anyChar] := by rw [h.zero]; rfl
  rw [e] at h1
  obtain ⟨lab2, h2⟩ := h1.ok.one _ h1.lt (.chr '\\') (not_any_chr _)
  have hy := h2.old _ h1.lt
  have hlt := Nat.lt_of_lt_of_le h1.lt h2.next
  have h3 := h2.ok.link _ (insertLoop (t, 0) anyChar).2 anyChar h2.lt hlt
    (.esc rfl (by rw [h2.label, h1.label]; rfl) (by rw [hy, h1.label]))
  refine ⟨lab2, h3, fun q hq => by rw [h2.old q (Nat.lt_of_lt_of_le hq h1.next), h1.old q hq], ?_, ?_, ?_, ?_⟩
  · unfold insertAnyLemma Pattern.link; dsimp only; split <;> exact hlt
  · exact hy.trans h1.label
  · refine Nat.le_trans h1.next (Nat.le_trans h2.next ?_)
    unfold insertAnyLemma Pattern.link; dsimp only; split <;> exact Nat.le_refl _
  · rw [← h1.finals, ← h2.finals]
    unfold insertAnyLemma Pattern.link; dsimp only; split <;> rfl

/-- The label of the last state of an item. -/
def itemLab (lem : Text) (tags : List Text) : List Elem :=
  tags.foldl pushTag (if lem = [] then [.many anyChar] else lem.foldl pushChar [])

def CatItem.label (i : CatItem) : List Elem := if i.tags ≠ [] then itemLab i.lem i.tags else itemLab i.name []

/-- What the transducer of a category is. -/
structure CatInv (t : Trans) (lab : Nat → List Elem) (is : List CatItem) : Prop where
  ok : Lab t lab
  sound : ∀ f ∈ t.finals, f < t.next ∧ ∃ i ∈ is, lab f = i.label
  complete : ∀ i ∈ is, ∃ f ∈ t.finals, lab f = i.label

theorem insertCatItem_inv {t : Trans} {lab : Nat → List Elem} (h : Lab t lab) (lem : Text) (tags : List Text) (hl : '\\' ∉ lem) (h1 : t!"ANY_TAG" ∉ tags)
    (h2 : t!"ANY_CHAR" ∉ tags) : ∃ x lab', insertCatItem t lem tags = setFinal x.1 x.2 ∧ Grown t lab x (itemLab lem tags) lab' := by
  have hx : ∃ lab', Grown t lab ((if lem = [] then insertAnyLemma else insertLemma lem) (t, 0)) (if lem = [] then [.many anyChar] else lem.foldl pushChar []) lab' := by
    split
    · exact grown_any h
    · have h0 := h.grown 0 h.pos
      rw [h.zero] at h0
      exact grown_lemma lem hl _ _ h0 (by simp [escLab])
  obtain ⟨lab1, hx⟩ := hx
  obtain ⟨lab2, hy⟩ := grown_tags tags h1 h2 _ _ hx
  exact ⟨_, lab2, rfl, hy⟩

theorem catItem_inv {t : Trans} {lab : Nat → List Elem} {is : List CatItem} (h : CatInv t lab is) (i : CatItem) (hi : i.Plain) :
    ∃ lab', CatInv (catItem t i) lab' (is ++ [i]) := by
  have hx : ∃ x lab', catItem t i = setFinal x.1 x.2 ∧ Grown t lab x i.label lab' := by
    unfold catItem CatItem.label
    split
    · exact insertCatItem_inv h.ok _ _ hi.lem.1 hi.tags.2.1 hi.tags.2.2
    · exact insertCatItem_inv h.ok _ _ hi.name.1 (by simp) (by simp)
  obtain ⟨x, lab', e, g⟩ := hx
  rw [e]
  refine ⟨lab', ⟨g.ok.pos, g.ok.init, g.ok.zero, g.ok.wf, g.ok.edge, g.ok.reach, g.ok.loops⟩, ?_, ?_⟩
  · intro f hf
    simp only [setFinal, List.mem_cons] at hf
    rcases hf with rfl | hf
    · exact ⟨g.lt, i, by simp, g.label⟩
    · rw [g.finals] at hf
      obtain ⟨h1, j, h2, h3⟩ := h.sound f hf
      exact ⟨Nat.lt_of_lt_of_le h1 g.next, j, by simp [h2], by rw [g.old f h1, h3]⟩
  · intro j hj
    rcases List.mem_append.1 hj with hj | hj
    · obtain ⟨f, h1, h2⟩ := h.complete j hj
      exact ⟨f, by simp [setFinal, g.finals, h1], by rw [g.old f (h.sound f h1).1, h2]⟩
    · rw [List.mem_singleton.1 hj]
      exact ⟨x.2, by simp [setFinal], g.label⟩

theorem items_inv (is : List CatItem) (hi : ∀ i ∈ is, i.Plain) : ∃ lab, CatInv (is.foldl catItem {}) lab is := by
  have key : ∀ (rest done : List CatItem) (t : Trans) (lab : Nat → List Elem), (∀ i ∈ rest, i.Plain) → CatInv t lab done →
      ∃ lab', CatInv (rest.foldl catItem t) lab' (done ++ rest) := by
    intro rest
    induction rest with
    | nil => intro done t lab _ h; exact ⟨lab, by simpa using h⟩
    | cons i rest ih =>
      intro done t lab hr h
      obtain ⟨lab1, h1⟩ := catItem_inv h i (hr i (by simp))
      obtain ⟨lab2, h2⟩ := ih _ _ _ (fun j hj => hr j (by simp [hj])) h1
      exact ⟨lab2, by simpa using h2⟩
  obtain ⟨lab, h⟩ := key is [] {} (fun _ => []) hi
    { ok := { pos := by decide, init := rfl, zero := rfl, wf := (by simp), edge := (by simp), reach := by
                intro q hq es he
                have : q = 0 := by dsimp at hq; omega
                subst this
                cases he
                exact .zero
              loops := by intro _ _ _ _ h; cases h }
      sound := (by simp), complete := (by simp) }
  exact ⟨lab, by simpa using h⟩

end Verif.Pattern
