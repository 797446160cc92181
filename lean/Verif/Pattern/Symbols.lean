import Verif.Pattern.Rules
/-!
# The labels of the transducers
-/
namespace Verif.Pattern

/-- The labels are in `P`. -/
def Labels (P : Sym → Prop) (t : Trans) : Prop := ∀ e ∈ t.edges, ∀ s, e.2.1 = some s → P s

theorem Labels.insertSingle {P : Sym → Prop} {t : Trans} (h : Labels P t) (a : Option Sym) (p : Nat) (ha : ∀ s, a = some s → P s) :
    Labels P (insertSingle t a p).1 := by
  rcases insertSingle_cases t a p with ⟨q, _, e⟩ | ⟨_, e⟩
  · rw [e]; exact h
  · rw [e]
    intro x hx s hs
    rcases List.mem_append.1 hx with hx | hx
    · exact h x hx s hs
    · rw [List.mem_singleton.1 hx] at hs; exact ha s hs

theorem Labels.link {P : Sym → Prop} {t : Trans} (h : Labels P t) (p q : Nat) (a : Sym) (ha : P a) : Labels P (link t p q (some a)) := by
  unfold Pattern.link
  split
  · exact h
  · intro x hx s hs
    rcases List.mem_append.1 hx with hx | hx
    · exact h x hx s hs
    · rw [List.mem_singleton.1 hx] at hs; injection hs with hs; exact hs ▸ ha

theorem Labels.loop {P : Sym → Prop} {x : Trans × Nat} (h : Labels P x.1) (a : Sym) (ha : P a) : Labels P (insertLoop x a).1 :=
  (h.insertSingle _ _ (fun s hs => by injection hs with hs; exact hs ▸ ha)).link _ _ _ ha

theorem Labels.anyLemma {P : Sym → Prop} {x : Trans × Nat} (h : Labels P x.1) (h1 : P anyChar) (h2 : P (.chr '\\')) : Labels P (insertAnyLemma x).1 :=
  ((h.loop _ h1).insertSingle _ _ (fun s hs => by injection hs with hs; exact hs ▸ h2)).link _ _ _ h1

theorem Labels.lemma {P : Sym → Prop} (h1 : P anyChar) (l : Text) (hb : '\\' ∉ l) (hl : ∀ c ∈ l, P (.chr c)) (x : Trans × Nat) (h : Labels P x.1) :
    Labels P (insertLemma l x).1 := by
  induction l generalizing x with
  | nil => rw [insertLemma]; exact h
  | cons c r ih =>
    simp only [List.mem_cons, not_or] at hb
    rw [insertLemma.eq_def]
    simp only [if_neg (Ne.symm hb.1)]
    split
    · exact ih hb.2 (fun d hd => hl d (by simp [hd])) _ (h.loop _ h1)
    · exact ih hb.2 (fun d hd => hl d (by simp [hd])) _ (h.insertSingle _ _ (fun s hs => by injection hs with hs; exact hs ▸ hl c (by simp)))

theorem Labels.tags {P : Sym → Prop} (h1 : P anyTag) (ts : List Text) (ht : ∀ t ∈ ts, t ≠ t!"*" → P (.tag (t!"<" ++ t ++ t!">"))) (x : Trans × Nat) (h : Labels P x.1) :
    Labels P (insertTags ts x).1 := by
  induction ts generalizing x with
  | nil => rw [insertTags]; exact h
  | cons t r ih =>
    rw [insertTags.eq_def]
    dsimp only
    split
    · exact ih (fun d hd => ht d (by simp [hd])) _ (h.loop _ h1)
    · rename_i hn
      exact ih (fun d hd => ht d (by simp [hd])) _ (h.insertSingle _ _ (fun s hs => by injection hs with hs; exact hs ▸ ht t (by simp) hn))

theorem Labels.insertCat {P : Sym → Prop} {t : Trans} (h : Labels P t) (l : Text) (ts : List Text) (h1 : P anyChar) (h2 : P anyTag) (h3 : P (.chr '\\'))
    (hb : '\\' ∉ l) (hl : ∀ c ∈ l, P (.chr c)) (ht : ∀ t ∈ ts, t ≠ t!"*" → P (.tag (t!"<" ++ t ++ t!">"))) : Labels P (insertCatItem t l ts) := by
  have h4 : Labels P ((if l = [] then insertAnyLemma else insertLemma l) (t, 0)).1 := by
    split
    · exact Labels.anyLemma h h1 h3
    · exact Labels.lemma h1 l hb hl _ h
  exact Labels.tags h2 ts ht _ h4

theorem Labels.items {P : Sym → Prop} (h1 : P anyChar) (h2 : P anyTag) (h3 : P (.chr '\\')) (is : List CatItem) (hi : ∀ i ∈ is, i.Plain)
    (hc : ∀ i ∈ is, (∀ c ∈ i.lem, P (.chr c)) ∧ (∀ c ∈ i.name, P (.chr c)) ∧ ∀ t ∈ i.tags, t ≠ t!"*" → P (.tag (t!"<" ++ t ++ t!">"))) (t : Trans) (h : Labels P t) :
    Labels P (is.foldl catItem t) := by
  induction is generalizing t with
  | nil => exact h
  | cons i r ih =>
    refine ih (fun j hj => hi j (by simp [hj])) (fun j hj => hc j (by simp [hj])) _ ?_
    have hp := hi i (by simp)
    have hq := hc i (by simp)
    unfold catItem
    split
    · exact h.insertCat _ _ h1 h2 h3 hp.lem.1 hq.1 hq.2.2
    · exact h.insertCat _ _ h1 h2 h3 hp.name.1 hq.2.1 (by simp)

theorem Labels.path {P : Sym → Prop} {t : Trans} (h : Labels P t) {p q : Nat} {u : List Sym} (hp : Path t.edges p u q) : ∀ s ∈ u, P s := by
  induction hp with
  | nil => simp
  | eps _ _ ih => exact ih
  | step he _ ih =>
    intro s hs
    rcases List.mem_cons.1 hs with rfl | hs
    · exact h _ he _ rfl
    · exact ih s hs

/-- An edge of a minimal transducer is part of what is accepted. -/
theorem Minimal.onPath {t m : Trans} (h : Minimal t m) {p q : Nat} {a : Sym} (he : (p, some a, q) ∈ m.edges) :
    ∃ u v, Path m.edges m.initial u p ∧ t.Accepts (u ++ a :: v) := by
  obtain ⟨u, v, f, h1, h2, h3⟩ := h.useful _ he
  exact ⟨u, v, h1, (h.same _).1 ⟨f, h3, h1.append (.step he h2)⟩⟩

theorem Minimal.labels {P : Sym → Prop} {t m : Trans} (h : Minimal t m) (hl : ∀ u, t.Accepts u → ∀ s ∈ u, P s) : Labels P m := by
  rintro ⟨p, a, q⟩ he s hs
  dsimp only at hs
  subst hs
  obtain ⟨u, v, _, h2⟩ := h.onPath he
  exact hl _ h2 s (by simp)

/-- The labels of a category. -/
def CatSym (cats : List (Text × List CatItem)) : Sym → Prop
  | .chr c => c ≠ '$'
  | .tag t => t ∈ alphabet cats
  | .rule _ => False

theorem lookupCat_iff (cats : List (Text × List CatItem)) (n : Text) (is : List CatItem) : lookupCat cats n = some is ↔ Defined cats n is := by
  unfold lookupCat
  constructor
  · intro h
    cases hx : cats.reverse.find? (fun c => decide (c.1 = n)) with
    | none => rw [hx] at h; cases h
    | some c =>
      rw [hx] at h
      injection h with h
      obtain ⟨h1, as, bs, h2, h3⟩ := List.find?_eq_some_iff_append.1 hx
      simp only [decide_eq_true_eq] at h1
      refine ⟨bs.reverse, as.reverse, ?_, fun x hx => ?_⟩
      · have := congrArg List.reverse h2
        rw [List.reverse_reverse] at this
        rw [this, ← h, ← h1]
        simp
      · have := h3 x (List.mem_reverse.1 hx)
        simpa using this
  · rintro ⟨a, b, rfl, h⟩
    have : (a ++ (n, is) :: b).reverse.find? (fun c => decide (c.1 = n)) = some (n, is) := by
      rw [List.find?_eq_some_iff_append]
      refine ⟨by simp, b.reverse, a.reverse, by simp, fun x hx => ?_⟩
      simpa using h x (List.mem_reverse.1 hx)
    rw [this]
    rfl

theorem lookupCat_mem {cats : List (Text × List CatItem)} {n : Text} {is : List CatItem} (h : lookupCat cats n = some is) : ∃ n', (n', is) ∈ cats := by
  unfold lookupCat at h
  cases hx : cats.reverse.find? (fun c => decide (c.1 = n)) with
  | none => rw [hx] at h; cases h
  | some c =>
    rw [hx] at h
    injection h with h
    have := List.mem_of_find?_eq_some hx
    rw [List.mem_reverse] at this
    exact ⟨c.1, by rw [← h]; exact this⟩

theorem defCat_labels (minimize : Trans → Trans) (hm : ∀ t, Minimal t (minimize t)) (cats : List (Text × List CatItem)) (hp : ∀ c ∈ cats, ∀ i ∈ c.2, i.Plain)
    {n : Text} {is : List CatItem} (h : lookupCat cats n = some is) : Labels (CatSym cats) (defCat minimize is) := by
  obtain ⟨n', h1⟩ := lookupCat_mem h
  have h2 := hp _ h1
  refine (hm _).labels (fun u hu => ?_)
  obtain ⟨f, _, hu⟩ := hu
  refine Labels.path (Labels.items ?_ ?_ ?_ is h2 ?_ _ (by intro e he; simp at he)) hu
  · simp [CatSym, anyChar, alphabet]
  · simp [CatSym, anyTag, alphabet]
  · simp [CatSym]
  · intro i hi
    have h3 := h2 i hi
    refine ⟨fun c hc e => h3.lem.2.1 (e ▸ hc), fun c hc e => h3.name.2.1 (e ▸ hc), fun t ht hn => ?_⟩
    simp only [CatSym, alphabet, List.mem_cons, List.mem_flatMap, List.mem_map, List.mem_filter, decide_eq_true_eq]
    exact Or.inr (Or.inr ⟨_, h1, i, hi, t, ⟨ht, hn⟩, rfl⟩)

theorem defCat_ok (minimize : Trans → Trans) (hm : ∀ t, Minimal t (minimize t)) (cats : List (Text × List CatItem)) (hp : ∀ c ∈ cats, ∀ i ∈ c.2, i.Plain)
    {n : Text} {is : List CatItem} (h : lookupCat cats n = some is) : CatOk (defCat minimize is) where
  wf := ⟨(hm _).initial, (hm _).edges, (hm _).finals⟩
  noRule _ _ _ he := defCat_labels minimize hm cats hp h _ he _ rfl
  noEnd _ _ he := defCat_labels minimize hm cats hp h _ he _ rfl rfl

end Verif.Pattern
