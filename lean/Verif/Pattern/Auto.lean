import Verif.Pattern.Spec
/-!
# Paths in transducers that grow
-/
namespace Verif.Pattern

theorem Path.append {E : List Edge} {p q r : Nat} {s u : List Sym} (h : Path E p s q) (h' : Path E q u r) : Path E p (s ++ u) r := by
  induction h with
  | nil => exact h'
  | eps he _ ih => exact .eps he (ih h')
  | step he _ ih => exact .step he (ih h')

theorem Path.mono {E E' : List Edge} (hE : ∀ e ∈ E, e ∈ E') {p q : Nat} {s : List Sym} (h : Path E p s q) : Path E' p s q := by
  induction h with
  | nil => exact .nil _
  | eps he _ ih => exact .eps (hE _ he) ih
  | step he _ ih => exact .step (hE _ he) ih

/-- An edge as a path. -/
theorem Path.edge {E : List Edge} {p q : Nat} {a : Option Sym} (h : (p, a, q) ∈ E) : Path E p a.toList q := by
  cases a with
  | none => exact .eps h (.nil _)
  | some a => exact .step h (.nil _)

theorem Path.split {E : List Edge} {p r : Nat} {s u : List Sym} (h : Path E p (s ++ u) r) : ∃ q, Path E p s q ∧ Path E q u r := by
  generalize hx : s ++ u = x at h
  induction h generalizing s with
  | nil p =>
    have h := List.append_eq_nil_iff.1 hx
    rw [h.1, h.2]
    exact ⟨p, .nil _, .nil _⟩
  | eps he _ ih =>
    obtain ⟨q, h1, h2⟩ := ih hx
    exact ⟨q, .eps he h1, h2⟩
  | @step p q r a y he hp ih =>
    cases s with
    | nil =>
      rw [List.nil_append] at hx
      exact ⟨p, .nil _, hx ▸ .step he hp⟩
    | cons b s =>
      injection hx with h1 h2
      obtain ⟨q', h3, h4⟩ := ih h2
      exact ⟨q', h1 ▸ .step he h3, h4⟩

/-- What is read on the way from the initial state 0 to a state: `den`. -/
structure Den (E : List Edge) (n : Nat) (den : Nat → List Sym → Prop) : Prop where
  pos : 0 < n
  wf : ∀ e ∈ E, e.1 < n ∧ e.2.2 < n
  zero : den 0 []
  sound : ∀ e ∈ E, ∀ u, den e.1 u → den e.2.2 (u ++ e.2.1.toList)
  complete : ∀ q, q < n → ∀ u, den q u → Path E 0 u q

theorem Den.path {E : List Edge} {n : Nat} {den : Nat → List Sym → Prop} (h : Den E n den) {p q : Nat} {s : List Sym} (hp : Path E p s q) (u : List Sym)
    (hu : den p u) : den q (u ++ s) := by
  induction hp generalizing u with
  | nil => simpa using hu
  | eps he _ ih => simpa using ih _ (h.sound _ he u hu)
  | step he _ ih => simpa using ih _ (h.sound _ he u hu)

theorem Den.iff {E : List Edge} {n : Nat} {den : Nat → List Sym → Prop} (h : Den E n den) {q : Nat} (hq : q < n) (u : List Sym) : den q u ↔ Path E 0 u q :=
  ⟨h.complete q hq u, fun hp => by simpa using h.path hp [] h.zero⟩

/-- A new edge that adds nothing. -/
theorem Den.addEdge {E : List Edge} {n : Nat} {den : Nat → List Sym → Prop} (h : Den E n den) (p q : Nat) (a : Option Sym) (hp : p < n) (hq : q < n)
    (hs : ∀ u, den p u → den q (u ++ a.toList)) : Den (E ++ [(p, a, q)]) n den where
  pos := h.pos
  wf e he := by
    rcases List.mem_append.1 he with he | he
    · exact h.wf e he
    · rw [List.mem_singleton.1 he]; exact ⟨hp, hq⟩
  zero := h.zero
  sound e he := by
    rcases List.mem_append.1 he with he | he
    · exact h.sound e he
    · rw [List.mem_singleton.1 he]; exact hs
  complete q hq u hu := (h.complete q hq u hu).mono (fun e he => List.mem_append_left _ he)

/-- `den` with a value for one state. -/
def setDen (den : Nat → List Sym → Prop) (n : Nat) (D : List Sym → Prop) : Nat → List Sym → Prop := fun q => if q = n then D else den q

theorem setDen_eq (den : Nat → List Sym → Prop) (n : Nat) (D : List Sym → Prop) : setDen den n D n = D := if_pos rfl
theorem setDen_ne (den : Nat → List Sym → Prop) (n : Nat) (D : List Sym → Prop) {q : Nat} (h : q ≠ n) : setDen den n D q = den q := if_neg h

/-- A new state. -/
theorem Den.addState {E : List Edge} {n : Nat} {den : Nat → List Sym → Prop} (h : Den E n den) (p : Nat) (a : Option Sym) (hp : p < n) :
    Den (E ++ [(p, a, n)]) (n + 1) (setDen den n (fun u => ∃ v, den p v ∧ u = v ++ a.toList)) where
  pos := by omega
  wf e he := by
    rcases List.mem_append.1 he with he | he
    · have := h.wf e he; omega
    · rw [List.mem_singleton.1 he]; exact ⟨by dsimp; omega, by dsimp; omega⟩
  zero := by rw [setDen_ne _ _ _ (by have := h.pos; omega)]; exact h.zero
  sound e he u := by
    rcases List.mem_append.1 he with he | he
    · have := h.wf e he
      rw [setDen_ne _ _ _ (by omega), setDen_ne _ _ _ (by omega)]
      exact h.sound e he u
    · rw [List.mem_singleton.1 he]
      dsimp only
      rw [setDen_ne _ _ _ (by omega), setDen_eq]
      exact fun hu => ⟨u, hu, rfl⟩
  complete q hq u := by
    by_cases e : q = n
    · subst e
      rw [setDen_eq]
      rintro ⟨v, hv, rfl⟩
      exact ((h.complete p hp v hv).mono (fun e he => List.mem_append_left _ he)).append (Path.edge (by simp))
    · rw [setDen_ne _ _ _ e]
      exact fun hu => (h.complete q (by omega) u hu).mono (fun e he => List.mem_append_left _ he)

/-- A new edge to a state that has no edges from it, which can now be reached in another way. -/
theorem Den.growEdge {E : List Edge} {n : Nat} {den : Nat → List Sym → Prop} (h : Den E n den) (p q : Nat) (a : Option Sym) (hp : p < n) (hq : q < n)
    (hpq : p ≠ q) (hout : ∀ e ∈ E, e.1 ≠ q) :
    Den (E ++ [(p, a, q)]) n (setDen den q (fun u => den q u ∨ ∃ v, den p v ∧ u = v ++ a.toList)) where
  pos := h.pos
  wf e he := by
    rcases List.mem_append.1 he with he | he
    · exact h.wf e he
    · rw [List.mem_singleton.1 he]; exact ⟨hp, hq⟩
  zero := by
    by_cases e : 0 = q
    · rw [e, setDen_eq]; exact Or.inl (e ▸ h.zero)
    · rw [setDen_ne _ _ _ e]; exact h.zero
  sound e he u := by
    rcases List.mem_append.1 he with he | he
    · rw [setDen_ne _ _ _ (hout e he)]
      intro hu
      have := h.sound e he u hu
      by_cases e' : e.2.2 = q
      · rw [e', setDen_eq]; exact Or.inl (e' ▸ this)
      · rw [setDen_ne _ _ _ e']; exact this
    · rw [List.mem_singleton.1 he]
      dsimp only
      rw [setDen_ne _ _ _ hpq, setDen_eq]
      exact fun hu => Or.inr ⟨u, hu, rfl⟩
  complete x hx u := by
    by_cases e : x = q
    · subst e
      rw [setDen_eq]
      rintro (hu | ⟨v, hv, rfl⟩)
      · exact (h.complete x hx u hu).mono (fun e he => List.mem_append_left _ he)
      · exact ((h.complete p hp v hv).mono (fun e he => List.mem_append_left _ he)).append (Path.edge (by simp))
    · rw [setDen_ne _ _ _ e]
      exact fun hu => (h.complete x hx u hu).mono (fun e he => List.mem_append_left _ he)

end Verif.Pattern
