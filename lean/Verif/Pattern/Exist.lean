import Verif.Pattern.Run
/-!
# What is assumed of `minimize` can be done

`Minimal` is a hypothesis of the theorems of C72.  It can be met: empty labels and edges that lead nowhere can be removed from each transducer.
-/
namespace Verif.Pattern

theorem Path.empty_cons {E : List Edge} {p r : Nat} {a : Sym} {s : List Sym} (h : Path E p (a :: s) r) :
    ∃ p' q, Path E p [] p' ∧ (p', some a, q) ∈ E ∧ Path E q s r := by
  generalize hx : a :: s = x at h
  induction h with
  | nil => cases hx
  | eps he _ ih =>
    obtain ⟨p', q, h1, h2, h3⟩ := ih hx
    exact ⟨p', q, .eps he h1, h2, h3⟩
  | step he hp _ =>
    injection hx with h1 h2
    subst h1 h2
    exact ⟨_, _, .nil _, he, hp⟩

open Classical in
/-- The edges without empty labels. -/
noncomputable def closeEdges (E : List Edge) (N : Nat) : List Edge :=
  (List.range N).flatMap (fun p => (E.filter (fun e => decide (e.2.1 ≠ none ∧ Path E p [] e.1))).map (fun e => (p, e.2)))

theorem mem_closeEdges {E : List Edge} {N p q : Nat} {a : Option Sym} :
    (p, a, q) ∈ closeEdges E N ↔ p < N ∧ ∃ s p', a = some s ∧ Path E p [] p' ∧ (p', some s, q) ∈ E := by
  unfold closeEdges
  simp only [List.mem_flatMap, List.mem_range, List.mem_map, List.mem_filter, decide_eq_true_eq]
  constructor
  · rintro ⟨p1, h1, ⟨p', b, q'⟩, ⟨h2, h3, h4⟩, h5⟩
    simp only [Prod.mk.injEq] at h5
    obtain ⟨rfl, rfl, rfl⟩ := h5
    cases b with
    | none => exact absurd rfl h3
    | some s => exact ⟨h1, s, p', rfl, h4, h2⟩
  · rintro ⟨h1, s, p', rfl, h4, h2⟩
    exact ⟨p, h1, (p', some s, q), ⟨h2, by simp, h4⟩, rfl⟩

theorem close_sound {E : List Edge} {N p q : Nat} {s : List Sym} (h : Path (closeEdges E N) p s q) : Path E p s q := by
  induction h with
  | nil => exact .nil _
  | eps he _ _ =>
    obtain ⟨_, s, _, h, _⟩ := mem_closeEdges.1 he
    cases h
  | step he _ ih =>
    obtain ⟨_, s, p', h1, h2, h3⟩ := mem_closeEdges.1 he
    injection h1 with h1
    subst h1
    exact h2.append (.step h3 ih)

theorem close_complete {E : List Edge} {N : Nat} (hE : ∀ e ∈ E, e.1 < N ∧ e.2.2 < N) (s : List Sym) {p r : Nat} (hp : p < N) (h : Path E p s r) :
    ∃ q, q < N ∧ Path (closeEdges E N) p s q ∧ Path E q [] r := by
  induction s generalizing p with
  | nil => exact ⟨p, hp, .nil _, h⟩
  | cons a s ih =>
    obtain ⟨p', q, h1, h2, h3⟩ := h.empty_cons
    obtain ⟨q', h4, h5, h6⟩ := ih (hE _ h2).2 h3
    exact ⟨q', h4, .step (mem_closeEdges.2 ⟨hp, a, p', rfl, h1, h2⟩) h5, h6⟩

/-- Edges from the initial state to a final one. -/
def Useful (E : List Edge) (i : Nat) (F : List Nat) (e : Edge) : Prop := ∃ u v f, Path E i u e.1 ∧ Path E e.2.2 v f ∧ f ∈ F

open Classical in
noncomputable def trim (E : List Edge) (i : Nat) (F : List Nat) : List Edge := E.filter (fun e => decide (Useful E i F e))

theorem trim_path {E : List Edge} {i : Nat} {F : List Nat} (hE : ∀ e ∈ E, e.2.1 ≠ none) {p f : Nat} {u s : List Sym} (hu : Path E i u p) (hf : f ∈ F)
    (h : Path E p s f) : Path (trim E i F) p s f := by
  induction h generalizing u with
  | nil => exact .nil _
  | eps he _ _ => exact absurd rfl (hE _ he)
  | step he hp ih =>
    refine .step ?_ (ih (hu.append (.step he (.nil _))) hf)
    unfold trim
    rw [List.mem_filter]
    exact ⟨he, by simp only [decide_eq_true_eq]; exact ⟨u, _, _, hu, hp, hf⟩⟩

theorem trim_sub {E : List Edge} {i : Nat} {F : List Nat} : ∀ e ∈ trim E i F, e ∈ E ∧ Useful E i F e := by
  intro e he
  unfold trim at he
  rw [List.mem_filter] at he
  exact ⟨he.1, by simpa using he.2⟩

theorem path_to_useful {E : List Edge} (hE : ∀ e ∈ E, e.2.1 ≠ none) {i : Nat} {F : List Nat} {p q : Nat} {s u v : List Sym} {f : Nat} (hu : Path E i u p)
    (h : Path E p s q) (hv : Path E q v f) (hf : f ∈ F) : Path (trim E i F) p s q := by
  induction h generalizing u with
  | nil => exact .nil _
  | eps he _ _ => exact absurd rfl (hE _ he)
  | step he hp ih =>
    refine .step ?_ (ih (hu.append (.step he (.nil _))) hv)
    unfold trim
    rw [List.mem_filter]
    exact ⟨he, by simp only [decide_eq_true_eq]; exact ⟨u, _, _, hu, hp.append hv, hf⟩⟩

/-- A number that is larger than those of all states. -/
def above (t : Trans) : Nat := (t.edges.map (fun e => e.1 + e.2.2)).sum + t.finals.sum + t.initial + 1

theorem le_sum {l : List Nat} {n : Nat} (h : n ∈ l) : n ≤ l.sum := by
  induction l with
  | nil => simp at h
  | cons a l ih =>
    rw [List.sum_cons]
    rcases List.mem_cons.1 h with rfl | h
    · omega
    · have := ih h; omega

theorem above_edges (t : Trans) : ∀ e ∈ t.edges, e.1 < above t ∧ e.2.2 < above t := by
  intro e he
  have := le_sum (l := t.edges.map (fun e => e.1 + e.2.2)) (List.mem_map.2 ⟨e, he, rfl⟩)
  unfold above
  omega

open Classical in
noncomputable def tidy (t : Trans) : Trans :=
  let N := above t
  let E := closeEdges t.edges N
  let F := (List.range N).filter (fun q => decide (∃ f ∈ t.finals, Path t.edges q [] f))
  { initial := t.initial, next := N, edges := trim E t.initial F, finals := F }

/-- What is assumed of `minimize` can be done for all transducers. -/
theorem tidy_minimal (t : Trans) : Minimal t (tidy t) := by
  have hN := above_edges t
  have hi : t.initial < above t := by unfold above; omega
  have hF : ∀ q, q ∈ (tidy t).finals ↔ q < above t ∧ ∃ f ∈ t.finals, Path t.edges q [] f := by
    intro q
    simp [tidy]
  have hne : ∀ e ∈ closeEdges t.edges (above t), e.2.1 ≠ none := by
    rintro ⟨p, a, q⟩ he
    obtain ⟨_, s, _, h, _⟩ := mem_closeEdges.1 he
    rw [h]; simp
  have hlt : ∀ e ∈ closeEdges t.edges (above t), e.1 < above t ∧ e.2.2 < above t := by
    rintro ⟨p, a, q⟩ he
    obtain ⟨h1, s, p', _, _, h2⟩ := mem_closeEdges.1 he
    exact ⟨h1, (hN _ h2).2⟩
  refine ⟨fun s => ⟨?_, ?_⟩, hi, fun e he => hlt e (trim_sub e he).1, fun f hf => ((hF f).1 hf).1, fun e he => hne e (trim_sub e he).1, fun e he => ?_⟩
  · rintro ⟨f, h1, h2⟩
    obtain ⟨_, f', h3, h4⟩ := (hF f).1 h1
    have h5 := close_sound (h2.mono (fun e he => (trim_sub e he).1))
    have h6 : Path t.edges t.initial (s ++ []) f' := h5.append h4
    rw [List.append_nil] at h6
    exact ⟨f', h3, h6⟩
  · rintro ⟨f, h1, h2⟩
    obtain ⟨q, h3, h4, h5⟩ := close_complete hN s hi h2
    have h6 : q ∈ (tidy t).finals := (hF q).2 ⟨h3, f, h1, h5⟩
    exact ⟨q, h6, trim_path hne (.nil _) h6 h4⟩
  · obtain ⟨h1, u, v, f, h2, h3, h4⟩ := trim_sub e he
    have h5 : Path (closeEdges t.edges (above t)) e.1 (e.2.1.toList ++ v) f := (Path.edge (p := e.1) (a := e.2.1) (q := e.2.2) h1).append h3
    refine ⟨u, v, f, path_to_useful hne (.nil _) h2 h5 h4, trim_path hne (h2.append (Path.edge (p := e.1) (a := e.2.1) (q := e.2.2) h1)) h4 h3, h4⟩

end Verif.Pattern
