import Verif.Crx.Spec
/-!
# Transducers that grow
-/
namespace Verif.Crx

theorem Path.append {E : List Edge} {p q r : Nat} {s u : List Lab} (h : Path E p s q) (h' : Path E q u r) : Path E p (s ++ u) r := by
  induction h with
  | nil => exact h'
  | eps he _ ih => exact .eps he (ih h')
  | step he _ ih => exact .step he (ih h')

theorem Path.mono {E E' : List Edge} (hE : ∀ e ∈ E, e ∈ E') {p q : Nat} {s : List Lab} (h : Path E p s q) : Path E' p s q := by
  induction h with
  | nil => exact .nil _
  | eps he _ ih => exact .eps (hE _ he) ih
  | step he _ ih => exact .step (hE _ he) ih

theorem Path.edge {E : List Edge} {p q : Nat} {a : Option Lab} (h : (p, a, q) ∈ E) : Path E p a.toList q := by
  cases a with
  | none => exact .eps h (.nil _)
  | some a => exact .step h (.nil _)

theorem Path.shift {E F : List Edge} (k : Nat) (h : ∀ e ∈ E, Crx.shift k e ∈ F) {p q : Nat} {s : List Lab} (hp : Path E p s q) : Path F (p + k) s (q + k) := by
  induction hp with
  | nil => exact .nil _
  | eps he _ ih => exact .eps (h _ he) ih
  | step he _ ih => exact .step (h _ he) ih

/-- What is read on the way from the initial state `i` to a state: `den`. -/
structure Den (i : Nat) (E : List Edge) (n : Nat) (den : Nat → List Lab → Prop) : Prop where
  pos : i < n
  wf : ∀ e ∈ E, e.1 < n ∧ e.2.2 < n
  zero : den i []
  sound : ∀ e ∈ E, ∀ u, den e.1 u → den e.2.2 (u ++ e.2.1.toList)
  complete : ∀ q, q < n → ∀ u, den q u → Path E i u q

theorem Den.path {i : Nat} {E : List Edge} {n : Nat} {den : Nat → List Lab → Prop} (h : Den i E n den) {p q : Nat} {s : List Lab} (hp : Path E p s q) (u : List Lab)
    (hu : den p u) : den q (u ++ s) := by
  induction hp generalizing u with
  | nil => simpa using hu
  | eps he _ ih => simpa using ih _ (h.sound _ he u hu)
  | step he _ ih => simpa using ih _ (h.sound _ he u hu)

theorem Den.iff {i : Nat} {E : List Edge} {n : Nat} {den : Nat → List Lab → Prop} (h : Den i E n den) {q : Nat} (hq : q < n) (u : List Lab) :
    den q u ↔ Path E i u q :=
  ⟨h.complete q hq u, fun hp => by simpa using h.path hp [] h.zero⟩

/-- A new edge that adds nothing. -/
theorem Den.addEdge {i : Nat} {E : List Edge} {n : Nat} {den : Nat → List Lab → Prop} (h : Den i E n den) (p q : Nat) (a : Option Lab) (hp : p < n) (hq : q < n)
    (hs : ∀ u, den p u → den q (u ++ a.toList)) : Den i (E ++ [(p, a, q)]) n den where
  pos := h.pos
  wf e he := by
    rcases List.mem_append.1 he with he | he
    · exact h.wf e he
    · rw [List.mem_singleton.1 he]; exact ⟨hp, hq⟩
  zero := h.zero
  sound e he := by
    rcases List.mem_append.1 he with he | he
    · exact h.sound e he
    · rw [List.mem_singleton.1 he]; exact hs
  complete q hq u hu := (h.complete q hq u hu).mono (fun e he => List.mem_append_left _ he)

/-- `den` with a value for one state. -/
def setDen (den : Nat → List Lab → Prop) (n : Nat) (D : List Lab → Prop) : Nat → List Lab → Prop := fun q => if q = n then D else den q

theorem setDen_eq (den : Nat → List Lab → Prop) (n : Nat) (D : List Lab → Prop) : setDen den n D n = D := if_pos rfl
theorem setDen_ne (den : Nat → List Lab → Prop) (n : Nat) (D : List Lab → Prop) {q : Nat} (h : q ≠ n) : setDen den n D q = den q := if_neg h

/-- A new state. -/
theorem Den.addState {i : Nat} {E : List Edge} {n : Nat} {den : Nat → List Lab → Prop} (h : Den i E n den) (p : Nat) (a : Option Lab) (hp : p < n) :
    Den i (E ++ [(p, a, n)]) (n + 1) (setDen den n (fun u => ∃ v, den p v ∧ u = v ++ a.toList)) where
  pos := by have := h.pos; omega
  wf e he := by
    rcases List.mem_append.1 he with he | he
    · have := h.wf e he; omega
    · rw [List.mem_singleton.1 he]; exact ⟨by dsimp; omega, by dsimp; omega⟩
  zero := by rw [setDen_ne _ _ _ (by have := h.pos; omega)]; exact h.zero
  sound e he u := by
    rcases List.mem_append.1 he with he | he
    · have := h.wf e he
      rw [setDen_ne _ _ _ (by omega), setDen_ne _ _ _ (by omega)]
      exact h.sound e he u
    · rw [List.mem_singleton.1 he]
      dsimp only
      rw [setDen_ne _ _ _ (by omega), setDen_eq]
      exact fun hu => ⟨u, hu, rfl⟩
  complete q hq u := by
    by_cases e : q = n
    · subst e
      rw [setDen_eq]
      rintro ⟨v, hv, rfl⟩
      exact ((h.complete p hp v hv).mono (fun e he => List.mem_append_left _ he)).append (Path.edge (by simp))
    · rw [setDen_ne _ _ _ e]
      exact fun hu => (h.complete q (by omega) u hu).mono (fun e he => List.mem_append_left _ he)

/-- A new edge to a state that has no edges from it, which can now be reached in another way. -/
theorem Den.growEdge {i : Nat} {E : List Edge} {n : Nat} {den : Nat → List Lab → Prop} (h : Den i E n den) (p q : Nat) (a : Option Lab) (hp : p < n) (hq : q < n)
    (hpq : p ≠ q) (hout : ∀ e ∈ E, e.1 ≠ q) :
    Den i (E ++ [(p, a, q)]) n (setDen den q (fun u => den q u ∨ ∃ v, den p v ∧ u = v ++ a.toList)) where
  pos := h.pos
  wf e he := by
    rcases List.mem_append.1 he with he | he
    · exact h.wf e he
    · rw [List.mem_singleton.1 he]; exact ⟨hp, hq⟩
  zero := by
    by_cases e : i = q
    · rw [e, setDen_eq]; exact Or.inl (e ▸ h.zero)
    · rw [setDen_ne _ _ _ e]; exact h.zero
  sound e he u := by
    rcases List.mem_append.1 he with he | he
    · rw [setDen_ne _ _ _ (hout e he)]
      intro hu
      have := h.sound e he u hu
      by_cases e' : e.2.2 = q
      · rw [e', setDen_eq]; exact Or.inl (e' ▸ this)
      · rw [setDen_ne _ _ _ e']; exact this
    · rw [List.mem_singleton.1 he]
      dsimp only
      rw [setDen_ne _ _ _ hpq, setDen_eq]
      exact fun hu => Or.inr ⟨u, hu, rfl⟩
  complete x hx u := by
    by_cases e : x = q
    · subst e
      rw [setDen_eq]
      rintro (hu | ⟨v, hv, rfl⟩)
      · exact (h.complete x hx u hu).mono (fun e he => List.mem_append_left _ he)
      · exact ((h.complete p hp v hv).mono (fun e he => List.mem_append_left _ he)).append (Path.edge (by simp))
    · rw [setDen_ne _ _ _ e]
      exact fun hu => (h.complete x hx u hu).mono (fun e he => List.mem_append_left _ he)

/-- The numbers of the states are below `next`. -/
structure Trans.Wf (c : Trans) : Prop where
  initial : c.initial < c.next
  edges : ∀ e ∈ c.edges, e.1 < c.next ∧ e.2.2 < c.next
  finals : ∀ f ∈ c.finals, f < c.next

/-- What is read on the way to the states, with a copy of `c` below `p`. -/
def copyDen (den : Nat → List Lab → Prop) (n p : Nat) (c : Trans) : Nat → List Lab → Prop :=
  fun q u => if q < n then den q u else ∃ v s, den p v ∧ Path c.edges c.initial s (q - n) ∧ u = v ++ s

theorem Den.copy {i : Nat} {E : List Edge} {n : Nat} {den : Nat → List Lab → Prop} (h : Den i E n den) (p : Nat) (hp : p < n) (c : Trans) (hc : c.Wf) :
    Den i (E ++ (p, none, c.initial + n) :: c.edges.map (Crx.shift n)) (n + c.next) (copyDen den n p c) where
  pos := by have := h.pos; omega
  wf e he := by
    simp only [List.mem_append, List.mem_cons, List.mem_map] at he
    rcases he with he | rfl | ⟨e', he, rfl⟩
    · have := h.wf e he; omega
    · have := hc.initial; dsimp; omega
    · have := hc.edges e' he; simp only [Crx.shift]; omega
  zero := by unfold copyDen; rw [if_pos h.pos]; exact h.zero
  sound e he u hu := by
    simp only [List.mem_append, List.mem_cons, List.mem_map] at he
    unfold copyDen at *
    rcases he with he | rfl | ⟨e', he, rfl⟩
    · have := h.wf e he
      rw [if_pos this.1] at hu
      rw [if_pos this.2]
      exact h.sound e he u hu
    · dsimp only at *
      rw [if_pos hp] at hu
      rw [if_neg (by omega)]
      exact ⟨u, [], hu, by rw [Nat.add_sub_cancel]; exact .nil _, by simp⟩
    · have e1 : (Crx.shift n e').1 = e'.1 + n := rfl
      have e2 : (Crx.shift n e').2.2 = e'.2.2 + n := rfl
      have e3 : (Crx.shift n e').2.1 = e'.2.1 := rfl
      rw [e1, if_neg (by omega), Nat.add_sub_cancel] at hu
      rw [e2, e3, if_neg (by omega), Nat.add_sub_cancel]
      obtain ⟨v, s, h1, h2, rfl⟩ := hu
      exact ⟨v, s ++ e'.2.1.toList, h1, h2.append (Path.edge he), by simp⟩
  complete q hq u hu := by
    unfold copyDen at hu
    split at hu
    · rename_i hx
      exact (h.complete q hx u hu).mono (fun e he => List.mem_append_left _ he)
    · rename_i hx
      obtain ⟨v, s, h1, h2, rfl⟩ := hu
      have h3 := h2.shift n (F := E ++ (p, none, c.initial + n) :: c.edges.map (Crx.shift n)) (fun e he => by simp only [List.mem_append, List.mem_cons, List.mem_map]; exact Or.inr (Or.inr ⟨e, he, rfl⟩))
      rw [Nat.sub_add_cancel (by omega)] at h3
      exact ((h.complete p hp v h1).mono (fun e he => List.mem_append_left _ he)).append (.eps (by simp) h3)

/-! ## Steps -/

abbrev Lang := List Lab → Prop

/-- The edges from `q`: none, or one to itself. -/
def Out (t : Trans) (q : Nat) (l : Option Lab) : Prop := ∀ e ∈ t.edges, e.1 = q → ∃ a, l = some a ∧ e = (q, some a, q)

/-- From the state `p` of `t`, the language `L` was added, and the edges from the end `y.2` are `l`. -/
structure Ext (t : Trans) (den : Nat → List Lab → Prop) (p : Nat) (y : Trans × Nat) (den' : Nat → List Lab → Prop) (l : Option Lab) (L : Lang) : Prop where
  ok : Den y.1.initial y.1.edges y.1.next den'
  old : ∀ q, q < t.next → den' q = den q
  exit : ∀ u, den' y.2 u ↔ ∃ v s, den p v ∧ L s ∧ u = v ++ s
  lt : y.2 < y.1.next
  grow : t.next ≤ y.1.next
  fresh : y.2 = p ∨ t.next ≤ y.2
  out : Out y.1 y.2 l
  loop : ∀ a, l = some a → (y.2, some a, y.2) ∈ y.1.edges
  edges : ∀ e ∈ y.1.edges, e ∈ t.edges ∨ e.1 = p ∨ t.next ≤ e.1
  finals : y.1.finals = t.finals
  initial : y.1.initial = t.initial

/-- One language after the other. -/
def Lang.cat (A B : Lang) : Lang := fun s => ∃ x y, s = x ++ y ∧ A x ∧ B y

/-- Nothing. -/
def Lang.one : Lang := fun s => s = []

theorem Ext.refl {t : Trans} {den : Nat → List Lab → Prop} (h : Den t.initial t.edges t.next den) {p : Nat} (hp : p < t.next) {l : Option Lab} (ho : Out t p l)
    (hl : ∀ a, l = some a → (p, some a, p) ∈ t.edges) : Ext t den p (t, p) den l Lang.one where
  ok := h
  old _ _ := rfl
  exit u := by simp [Lang.one]
  lt := hp
  grow := Nat.le_refl _
  fresh := Or.inl rfl
  out := ho
  loop := hl
  edges e he := Or.inl he
  finals := rfl
  initial := rfl

theorem Ext.trans {t : Trans} {den den' den'' : Nat → List Lab → Prop} {p : Nat} {y z : Trans × Nat} {l l' : Option Lab} {L K : Lang}
    (h : Ext t den p y den' l L) (h' : Ext y.1 den' y.2 z den'' l' K) : Ext t den p z den'' l' (Lang.cat L K) where
  ok := h'.ok
  old q hq := by rw [h'.old q (Nat.lt_of_lt_of_le hq h.grow), h.old q hq]
  exit u := by
    rw [h'.exit]
    constructor
    · rintro ⟨v, s, h1, h2, rfl⟩
      obtain ⟨w, r, h3, h4, rfl⟩ := (h.exit v).1 h1
      exact ⟨w, r ++ s, h3, ⟨r, s, rfl, h4, h2⟩, by simp⟩
    · rintro ⟨w, x, h3, ⟨r, s, rfl, h4, h2⟩, rfl⟩
      exact ⟨w ++ r, s, (h.exit _).2 ⟨w, r, h3, h4, rfl⟩, h2, by simp⟩
  lt := h'.lt
  grow := Nat.le_trans h.grow h'.grow
  fresh := by
    have := h.grow
    rcases h'.fresh with e | e <;> rcases h.fresh with f | f <;> omega
  out := h'.out
  loop := h'.loop
  edges e he := by
    have := h.grow
    rcases h'.edges e he with e1 | e1 | e1
    · exact h.edges e e1
    · rcases h.fresh with f | f
      · exact Or.inr (Or.inl (e1.trans f))
      · exact Or.inr (Or.inr (by omega))
    · exact Or.inr (Or.inr (by omega))
  finals := h'.finals.trans h.finals
  initial := h'.initial.trans h.initial

theorem Ext.congr {t : Trans} {den den' : Nat → List Lab → Prop} {p : Nat} {y : Trans × Nat} {l : Option Lab} {L K : Lang}
    (h : Ext t den p y den' l L) (hL : ∀ s, L s ↔ K s) : Ext t den p y den' l K := by
  have : L = K := funext fun s => propext (hL s)
  rw [← this]; exact h

/-- A step from `p`, where the edges are `l`. -/
structure At (t : Trans) (den : Nat → List Lab → Prop) (p : Nat) (l : Option Lab) : Prop where
  ok : Den t.initial t.edges t.next den
  lt : p < t.next
  out : Out t p l
  loop : ∀ a, l = some a → (p, some a, p) ∈ t.edges

theorem Ext.here {t : Trans} {den den' : Nat → List Lab → Prop} {p : Nat} {y : Trans × Nat} {l : Option Lab} {L : Lang} (h : Ext t den p y den' l L) :
    At y.1 den' y.2 l := ⟨h.ok, h.lt, h.out, h.loop⟩

theorem At.refl {t : Trans} {den : Nat → List Lab → Prop} {p : Nat} {l : Option Lab} (h : At t den p l) : Ext t den p (t, p) den l Lang.one :=
  Ext.refl h.ok h.lt h.out h.loop

theorem find_none {t : Trans} {p : Nat} {l : Option Lab} (h : Out t p l) {a : Lab} (hl : l ≠ some a) :
    t.edges.find? (fun e => decide (e.1 = p ∧ e.2.1 = some a)) = none := by
  rw [List.find?_eq_none]
  intro e he
  simp only [decide_eq_true_eq]
  rintro ⟨h1, h2⟩
  obtain ⟨b, h3, h4⟩ := h e he h1
  rw [h4] at h2
  exact hl (h3.trans h2)

theorem find_some {t : Trans} {p : Nat} {a : Lab} (h : Out t p (some a)) (hm : (p, some a, p) ∈ t.edges) :
    ∃ e, t.edges.find? (fun e => decide (e.1 = p ∧ e.2.1 = some a)) = some e ∧ e.2.2 = p := by
  cases hf : t.edges.find? (fun e => decide (e.1 = p ∧ e.2.1 = some a)) with
  | none =>
    rw [List.find?_eq_none] at hf
    exact absurd (by simp) (hf _ hm)
  | some e =>
    refine ⟨e, rfl, ?_⟩
    have h1 := List.mem_of_find?_eq_some hf
    have h2 := List.find?_some hf
    simp only [decide_eq_true_eq] at h2
    obtain ⟨b, _, h3⟩ := h e h1 h2.1
    rw [h3]

/-- A new state at the end of an edge. -/
theorem At.new {t : Trans} {den : Nat → List Lab → Prop} {p : Nat} (h : Den t.initial t.edges t.next den) (hp : p < t.next) (a : Option Lab) :
    ∃ den', Ext t den p ({ t with next := t.next + 1, edges := t.edges ++ [(p, a, t.next)] }, t.next) den' none (fun s => s = a.toList) := by
  refine ⟨_, h.addState p a hp, fun q hq => setDen_ne _ _ _ (by omega), fun u => ?_, by dsimp; omega, by dsimp; omega, Or.inr (Nat.le_refl _), ?_, fun a ha => (by cases ha), ?_, rfl, rfl⟩
  · rw [setDen_eq]
    constructor
    · rintro ⟨v, h1, h2⟩; exact ⟨v, _, h1, rfl, h2⟩
    · rintro ⟨v, s, h1, rfl, h2⟩; exact ⟨v, h1, h2⟩
  · intro e he hx
    rcases List.mem_append.1 he with he | he
    · have := (h.wf e he).1; dsimp only at hx; omega
    · rw [List.mem_singleton.1 he] at hx; dsimp only at hx; omega
  · intro e he
    rcases List.mem_append.1 he with he | he
    · exact Or.inl he
    · rw [List.mem_singleton.1 he]; exact Or.inr (Or.inl rfl)

theorem At.insertNew {t : Trans} {den : Nat → List Lab → Prop} {p : Nat} (h : Den t.initial t.edges t.next den) (hp : p < t.next) :
    ∃ den', Ext t den p (insertNew (t, p)) den' none Lang.one := At.new h hp none

theorem At.single {t : Trans} {den : Nat → List Lab → Prop} {p : Nat} {l : Option Lab} (h : At t den p l) (a : Lab) (ha : l ≠ some a) :
    ∃ den', Ext t den p (insertSingle a (t, p)) den' none (fun s => s = [a]) := by
  unfold insertSingle
  rw [find_none h.out ha]
  exact At.new h.ok h.lt (some a)

theorem At.single_loop {t : Trans} {den : Nat → List Lab → Prop} {p : Nat} {a : Lab} (h : At t den p (some a)) : insertSingle a (t, p) = (t, p) := by
  unfold insertSingle
  obtain ⟨e, h1, h2⟩ := find_some h.out (h.loop a rfl)
  dsimp only
  rw [h1]
  dsimp only
  rw [h2]

/-- Any number of `a`. -/
def Lang.star (a : Lab) : Lang := fun s => ∃ n, s = List.replicate n a

/-- A loop at a state without edges. -/
theorem Ext.addLoop {t : Trans} {den den' : Nat → List Lab → Prop} {p : Nat} {y : Trans × Nat} {L : Lang} (h : Ext t den p y den' none L) (hn : t.next ≤ y.2) (a : Lab) :
    ∃ den'', Ext t den p (link y.1 y.2 y.2 (some a), y.2) den'' (some a) (Lang.cat L (Lang.star a)) := by
  have hno : (y.2, some a, y.2) ∉ y.1.edges := by
    intro hx
    obtain ⟨b, hb, _⟩ := h.out _ hx rfl
    cases hb
  have hfree : ∀ e ∈ y.1.edges, e.1 ≠ y.2 := by
    intro e he hx
    obtain ⟨b, hb, _⟩ := h.out e he hx
    cases hb
  unfold link
  rw [if_neg hno]
  refine ⟨setDen den' y.2 (fun u => ∃ v n, den' y.2 v ∧ u = v ++ List.replicate n a), ?_, ?_, ?_, h.lt, h.grow, h.fresh, ?_, ?_, ?_, h.finals, h.initial⟩
  · refine ⟨h.ok.pos, ?_, ?_, ?_, ?_⟩
    · intro e he
      rcases List.mem_append.1 he with he | he
      · exact h.ok.wf e he
      · rw [List.mem_singleton.1 he]; exact ⟨h.lt, h.lt⟩
    · dsimp only
      by_cases e : y.1.initial = y.2
      · rw [e, setDen_eq]
        exact ⟨[], 0, e ▸ h.ok.zero, rfl⟩
      · rw [setDen_ne _ _ _ e]; exact h.ok.zero
    · intro e he u hu
      rcases List.mem_append.1 he with he | he
      · rw [setDen_ne _ _ _ (hfree e he)] at hu
        have := h.ok.sound e he u hu
        by_cases e' : e.2.2 = y.2
        · rw [e', setDen_eq]; exact ⟨_, 0, e' ▸ this, by simp⟩
        · rw [setDen_ne _ _ _ e']; exact this
      · rw [List.mem_singleton.1 he] at hu ⊢
        dsimp only at hu ⊢
        rw [setDen_eq] at hu ⊢
        obtain ⟨v, n, h1, rfl⟩ := hu
        exact ⟨v, n + 1, h1, by rw [List.replicate_succ', List.append_assoc]; rfl⟩
    · intro q hq u hu
      by_cases e : q = y.2
      · subst e
        rw [setDen_eq] at hu
        obtain ⟨v, n, h1, rfl⟩ := hu
        refine ((h.ok.complete y.2 h.lt v h1).mono (fun e he => List.mem_append_left _ he)).append ?_
        clear h1
        induction n with
        | zero => exact .nil _
        | succ n ih => exact .step (q := y.2) (by simp) ih
      · rw [setDen_ne _ _ _ e] at hu
        exact (h.ok.complete q hq u hu).mono (fun e he => List.mem_append_left _ he)
  · intro q hq
    rw [setDen_ne _ _ _ (by omega)]
    exact h.old q hq
  · intro u
    dsimp only
    rw [setDen_eq]
    constructor
    · rintro ⟨v, n, h1, rfl⟩
      obtain ⟨w, s, h2, h3, rfl⟩ := (h.exit v).1 h1
      exact ⟨w, s ++ List.replicate n a, h2, ⟨s, _, rfl, h3, n, rfl⟩, by simp⟩
    · rintro ⟨w, x, h2, ⟨s, r, rfl, h3, n, rfl⟩, rfl⟩
      exact ⟨w ++ s, n, (h.exit _).2 ⟨w, s, h2, h3, rfl⟩, by simp⟩
  · intro e he hx
    rcases List.mem_append.1 he with he | he
    · exact absurd hx (hfree e he)
    · exact ⟨a, rfl, List.mem_singleton.1 he⟩
  · intro b hb
    injection hb with hb
    subst hb
    simp
  · intro e he
    rcases List.mem_append.1 he with he | he
    · exact h.edges e he
    · rw [List.mem_singleton.1 he]
      rcases h.fresh with f | f
      · exact Or.inr (Or.inl f)
      · exact Or.inr (Or.inr f)

end Verif.Crx
