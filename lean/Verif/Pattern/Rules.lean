import Verif.Pattern.CatProps
/-!
# The transducer of the patterns
-/
namespace Verif.Pattern

/-! ## A copy of a transducer -/

theorem Path.shift {E F : List Edge} (k : Nat) (h : ∀ e ∈ E, Pattern.shift k e ∈ F) {p q : Nat} {s : List Sym} (hp : Path E p s q) : Path F (p + k) s (q + k) := by
  induction hp with
  | nil => exact .nil _
  | eps he _ ih => exact .eps (h _ he) ih
  | step he _ ih => exact .step (h _ he) ih

/-- The numbers of the states are below `next`. -/
structure Trans.Wf (c : Trans) : Prop where
  initial : c.initial < c.next
  edges : ∀ e ∈ c.edges, e.1 < c.next ∧ e.2.2 < c.next
  finals : ∀ f ∈ c.finals, f < c.next

/-- What is read on the way to the states, with a copy of `c` below `p`. -/
def copyDen (den : Nat → List Sym → Prop) (n p : Nat) (c : Trans) : Nat → List Sym → Prop :=
  fun q u => if q < n then den q u else ∃ v s, den p v ∧ Path c.edges c.initial s (q - n) ∧ u = v ++ s

theorem Den.copy {E : List Edge} {n : Nat} {den : Nat → List Sym → Prop} (h : Den E n den) (p : Nat) (hp : p < n) (c : Trans) (hc : c.Wf) :
    Den (E ++ (p, none, c.initial + n) :: c.edges.map (Pattern.shift n)) (n + c.next) (copyDen den n p c) where
  pos := by have := h.pos; omega
  wf e he := by
    simp only [List.mem_append, List.mem_cons, List.mem_map] at he
    rcases he with he | rfl | ⟨e', he, rfl⟩
    · have := h.wf e he; omega
    · have := hc.initial; dsimp; omega
    · have := hc.edges e' he; simp only [Pattern.shift]; omega
  zero := by unfold copyDen; rw [if_pos h.pos]; exact h.zero
  sound e he u hu := by
    simp only [List.mem_append, List.mem_cons, List.mem_map] at he
    unfold copyDen at *
    rcases he with he | rfl | ⟨e', he, rfl⟩
    · have := h.wf e he
      rw [if_pos this.1] at hu
      rw [if_pos this.2]
      exact h.sound e he u hu
    · dsimp only at *
      rw [if_pos hp] at hu
      rw [if_neg (by omega)]
      exact ⟨u, [], hu, by rw [Nat.add_sub_cancel]; exact .nil _, by simp⟩
    · have e1 : (Pattern.shift n e').1 = e'.1 + n := rfl
      have e2 : (Pattern.shift n e').2.2 = e'.2.2 + n := rfl
      have e3 : (Pattern.shift n e').2.1 = e'.2.1 := rfl
      rw [e1, if_neg (by omega), Nat.add_sub_cancel] at hu
      rw [e2, e3, if_neg (by omega), Nat.add_sub_cancel]
      obtain ⟨v, s, h1, h2, rfl⟩ := hu
      exact ⟨v, s ++ e'.2.1.toList, h1, h2.append (Path.edge he), by simp⟩
  complete q hq u hu := by
    unfold copyDen at hu
    split at hu
    · rename_i hx
      exact (h.complete q hx u hu).mono (fun e he => List.mem_append_left _ he)
    · rename_i hx
      obtain ⟨v, s, h1, h2, rfl⟩ := hu
      have h3 := h2.shift n (F := E ++ (p, none, c.initial + n) :: c.edges.map (Pattern.shift n)) (fun e he => by simp only [List.mem_append, List.mem_cons, List.mem_map]; exact Or.inr (Or.inr ⟨e, he, rfl⟩))
      rw [Nat.sub_add_cancel (by omega)] at h3
      exact ((h.complete p hp v h1).mono (fun e he => List.mem_append_left _ he)).append (.eps (by simp) h3)

/-- What `insertTrans` gives. -/
structure Copied (t : Trans) (den : Nat → List Sym → Prop) (p : Nat) (c : Trans) (y : Trans × Nat) (den' : Nat → List Sym → Prop) : Prop where
  ok : Den y.1.edges y.1.next den'
  old : ∀ q, q < t.next → den' q = den q
  new : t.next ≤ y.2
  lt : y.2 < y.1.next
  next : t.next ≤ y.1.next
  exit : ∀ u, den' y.2 u ↔ ∃ v s, den p v ∧ c.Accepts s ∧ u = v ++ s
  finals : y.1.finals = t.finals
  initial : y.1.initial = t.initial
  edges : ∀ e ∈ y.1.edges, e ∈ t.edges ∨ (e.1 = p ∧ e.2.1 = none) ∨ (t.next ≤ e.1 ∧ (e.2.1 = none ∨ ∃ e' ∈ c.edges, e = shift t.next e'))

theorem insertTrans_copied {t : Trans} {den : Nat → List Sym → Prop} (h : Den t.edges t.next den) (p : Nat) (hp : p < t.next) (c : Trans) (hc : c.Wf)
    (y : Trans × Nat) (hy : insertTrans t p c = some y) : ∃ den', Copied t den p c y den' := by
  have hd := h.copy p hp c hc
  have hn : ¬ (t.next + c.next < t.next) := by omega
  have hmem : ∀ e ∈ t.edges ++ (p, none, c.initial + t.next) :: c.edges.map (Pattern.shift t.next),
      e ∈ t.edges ∨ (e.1 = p ∧ e.2.1 = none) ∨ (t.next ≤ e.1 ∧ (e.2.1 = none ∨ ∃ e' ∈ c.edges, e = Pattern.shift t.next e')) := by
    intro e he
    simp only [List.mem_append, List.mem_cons, List.mem_map] at he
    rcases he with he | rfl | ⟨e', he, rfl⟩
    · exact Or.inl he
    · exact Or.inr (Or.inl ⟨rfl, rfl⟩)
    · exact Or.inr (Or.inr ⟨by simp [Pattern.shift], Or.inr ⟨e', he, rfl⟩⟩)
  have hold : ∀ q, q < t.next → copyDen den t.next p c q = den q := fun q hq => by funext u; unfold copyDen; rw [if_pos hq]
  unfold insertTrans at hy
  dsimp only at hy
  split at hy
  · cases hy
  · rename_i f hf
    injection hy with hy
    subst hy
    have hfl := hc.finals f (by simp [hf])
    refine ⟨copyDen den t.next p c, hd, hold, by dsimp; omega, by dsimp; omega, by dsimp; omega, ?_, rfl, rfl, hmem⟩
    intro u
    dsimp only
    unfold copyDen Trans.Accepts
    rw [if_neg (by omega), Nat.add_sub_cancel, hf]
    simp
  · rename_i hfs
    injection hy with hy
    subst hy
    have hD : Den ((t.edges ++ (p, none, c.initial + t.next) :: c.edges.map (Pattern.shift t.next)) ++ c.finals.map (fun f => (f + t.next, none, t.next + c.next)))
        (t.next + c.next + 1) (setDen (copyDen den t.next p c) (t.next + c.next) (fun u => ∃ v s, den p v ∧ c.Accepts s ∧ u = v ++ s)) := {
      pos := by omega
      wf := fun e he => by
        rcases List.mem_append.1 he with he | he
        · have := hd.wf e he; omega
        · simp only [List.mem_map] at he
          obtain ⟨f, hf, rfl⟩ := he
          have := hc.finals f hf
          dsimp; omega
      zero := by rw [setDen_ne _ _ _ (by have := h.pos; omega)]; exact hd.zero
      sound := fun e he u hu => by
        rcases List.mem_append.1 he with he | he
        · have := hd.wf e he
          rw [setDen_ne _ _ _ (by omega)] at hu ⊢
          exact hd.sound e he u hu
        · simp only [List.mem_map] at he
          obtain ⟨f, hf, rfl⟩ := he
          have := hc.finals f hf
          dsimp only at *
          rw [setDen_ne _ _ _ (by omega)] at hu
          rw [setDen_eq]
          unfold copyDen at hu
          rw [if_neg (by omega), Nat.add_sub_cancel] at hu
          obtain ⟨v, s, h1, h2, h3⟩ := hu
          exact ⟨v, s, h1, ⟨f, hf, h2⟩, by simpa using h3⟩
      complete := fun q hq u hu => by
        by_cases e : q = t.next + c.next
        · subst e
          rw [setDen_eq] at hu
          obtain ⟨v, s, h1, ⟨f, hf, h2⟩, rfl⟩ := hu
          have hfl := hc.finals f hf
          have h3 := hd.complete (f + t.next) (by omega) (v ++ s) (by
            unfold copyDen
            rw [if_neg (by omega), Nat.add_sub_cancel]
            exact ⟨v, s, h1, h2, rfl⟩)
          have h4 := (h3.mono (fun e he => List.mem_append_left (c.finals.map (fun f => (f + t.next, none, t.next + c.next))) he)).append
            (Path.eps (p := f + t.next) (q := t.next + c.next) (List.mem_append_right _ (List.mem_map.2 ⟨f, hf, rfl⟩)) (.nil _))
          simpa using h4
        · rw [setDen_ne _ _ _ e] at hu
          exact (hd.complete q (by omega) u hu).mono (fun e he => List.mem_append_left _ he) }
    refine ⟨_, hD, fun q hq => by rw [setDen_ne _ _ _ (by omega), hold q hq], by dsimp; omega, by dsimp; omega, by dsimp; omega, fun u => by dsimp only; rw [setDen_eq],
      rfl, rfl, ?_⟩
    intro e he
    rcases List.mem_append.1 he with he | he
    · exact hmem e he
    · simp only [List.mem_map] at he
      obtain ⟨f, _, rfl⟩ := he
      exact Or.inr (Or.inr ⟨by dsimp; omega, Or.inl rfl⟩)

/-! ## The patterns -/

/-- What a pattern (backwards) reads, if `C n s` says that category `n` reads `s`. -/
inductive PatLang (C : Text → List Sym → Prop) : List Text → List Sym → Prop where
  | nil : PatLang C [] []
  | cons {n : Text} {ns : List Text} {u b s : List Sym} : PatLang C ns u → C n s → (b = [] ∨ ns ≠ [] ∧ b = [.chr ' ']) →
      PatLang C (n :: ns) (u ++ b ++ .chr '^' :: s ++ [.chr '$'])

/-- The states of the transducer: `node` gives the pattern of those that are the end of one. -/
structure Aux (C : Text → List Sym → Prop) (t : Trans) (den : Nat → List Sym → Prop) (node : Nat → Option (List Text)) (count : Nat) (ex : Option Nat) : Prop where
  ok : Den t.edges t.next den
  initial : t.initial = 0
  root : node 0 = some []
  nodes : ∀ n cs, node n = some cs → n < t.next ∧ (n = 0 ↔ cs = []) ∧ ∀ u, den n u ↔ PatLang C cs u
  hat : ∀ n cs x, node n = some cs → ex ≠ some n → (n, some (.chr '^'), x) ∈ t.edges →
    ∀ u, den x u ↔ ∃ v, den n v ∧ (u = v ++ [.chr '^'] ∨ n ≠ 0 ∧ u = v ++ [.chr ' ', .chr '^'])
  sp : ∀ n cs x, node n = some cs → (n, some (.chr ' '), x) ∈ t.edges → n ≠ 0 ∧ node x = none ∧ ∀ u, den x u ↔ ∃ v, den n v ∧ u = v ++ [.chr ' ']
  rules : ∀ p k q, (p, some (.rule k), q) ∈ t.edges → k < count

variable {C : Text → List Sym → Prop} {t : Trans} {den : Nat → List Sym → Prop} {node : Nat → Option (List Text)} {count : Nat} {ex : Option Nat}

theorem Aux.weaken (h : Aux C t den node count none) (ex : Option Nat) : Aux C t den node count ex :=
  { h with hat := fun n cs x h1 _ h2 => h.hat n cs x h1 (by simp) h2 }

theorem Aux.fresh (h : Aux C t den node count ex) {x : Nat} (hx : t.next ≤ x) : node x = none := by
  cases e : node x with
  | none => rfl
  | some cs => have := (h.nodes x cs e).1; omega

/-- A new state. -/
theorem Aux.addState (h : Aux C t den node count ex) (p : Nat) (a : Sym) (hp : p < t.next) (h1 : a = .chr '^' → node p ≠ none → ex = some p ∨ p = 0)
    (h2 : a = .chr ' ' → p ≠ 0) (count' : Nat) (hcount : count ≤ count') (h3 : ∀ k, a = .rule k → k < count') :
    Aux C { t with next := t.next + 1, edges := t.edges ++ [(p, some a, t.next)] } (setDen den t.next (fun u => ∃ v, den p v ∧ u = v ++ [a])) node count' ex where
  ok := h.ok.addState p (some a) hp
  initial := h.initial
  root := h.root
  nodes n cs hn := by
    obtain ⟨h4, h5, h6⟩ := h.nodes n cs hn
    rw [setDen_ne _ _ _ (by omega)]
    exact ⟨by dsimp; omega, h5, h6⟩
  hat n cs x hn hex hx := by
    have hlt := (h.nodes n cs hn).1
    rcases List.mem_append.1 hx with hx | hx
    · have := h.ok.wf _ hx
      dsimp at this
      rw [setDen_ne _ _ _ (by omega), setDen_ne _ _ _ (by omega)]
      exact h.hat n cs x hn hex hx
    · simp only [List.mem_singleton, Prod.mk.injEq, Option.some.injEq] at hx
      obtain ⟨rfl, rfl, rfl⟩ := hx
      rw [setDen_eq, setDen_ne _ _ _ (by omega)]
      rcases h1 rfl (by rw [hn]; simp) with h4 | h4
      · exact absurd h4 hex
      · subst h4
        intro u
        simp
  sp n cs x hn hx := by
    have hlt := (h.nodes n cs hn).1
    rcases List.mem_append.1 hx with hx | hx
    · have := h.ok.wf _ hx
      dsimp at this
      rw [setDen_ne _ _ _ (by omega), setDen_ne _ _ _ (by omega)]
      exact h.sp n cs x hn hx
    · simp only [List.mem_singleton, Prod.mk.injEq, Option.some.injEq] at hx
      obtain ⟨rfl, rfl, rfl⟩ := hx
      rw [setDen_eq, setDen_ne _ _ _ (by omega)]
      exact ⟨h2 rfl, h.fresh (Nat.le_refl _), fun u => Iff.rfl⟩
  rules q k r hx := by
    rcases List.mem_append.1 hx with hx | hx
    · exact Nat.lt_of_lt_of_le (h.rules q k r hx) hcount
    · simp only [List.mem_singleton, Prod.mk.injEq, Option.some.injEq] at hx
      exact h3 k hx.2.1.symm

/-- A new edge from a state that is not the end of a pattern. -/
theorem Aux.addEdge (h : Aux C t den node count ex) (p q : Nat) (c : Char) (hp : p < t.next) (hq : q < t.next) (hn : node p = none)
    (hs : ∀ u, den p u → den q (u ++ [.chr c])) : Aux C { t with edges := t.edges ++ [(p, some (.chr c), q)] } den node count ex where
  ok := h.ok.addEdge p q _ hp hq hs
  initial := h.initial
  root := h.root
  nodes := h.nodes
  hat n cs x hn' hex hx := by
    rcases List.mem_append.1 hx with hx | hx
    · exact h.hat n cs x hn' hex hx
    · simp only [List.mem_singleton, Prod.mk.injEq] at hx
      rw [hx.1, hn] at hn'
      cases hn'
  sp n cs x hn' hx := by
    rcases List.mem_append.1 hx with hx | hx
    · exact h.sp n cs x hn' hx
    · simp only [List.mem_singleton, Prod.mk.injEq] at hx
      rw [hx.1, hn] at hn'
      cases hn'
  rules q k r hx := by
    rcases List.mem_append.1 hx with hx | hx
    · exact h.rules q k r hx
    · simp at hx

/-- The optional blank. -/
theorem Aux.blank (h : Aux C t den node count ex) (p : Nat) (cs : List Text) (hp : node p = some cs) (h0 : p ≠ 0) :
    ∃ den', Aux C (insertSingle t (some (.chr ' ')) p).1 den' node count ex ∧ (∀ q, q < t.next → den' q = den q) ∧
      (insertSingle t (some (.chr ' ')) p).2 < (insertSingle t (some (.chr ' ')) p).1.next ∧ node (insertSingle t (some (.chr ' ')) p).2 = none ∧
      (∀ u, den' (insertSingle t (some (.chr ' ')) p).2 u ↔ ∃ v, den p v ∧ u = v ++ [.chr ' ']) ∧ t.next ≤ (insertSingle t (some (.chr ' ')) p).1.next ∧
      (∀ e ∈ (insertSingle t (some (.chr ' ')) p).1.edges, e ∈ t.edges ∨ e = (p, some (.chr ' '), t.next)) ∧
      (insertSingle t (some (.chr ' ')) p).1.finals = t.finals ∧
      (∀ e ∈ t.edges, e ∈ (insertSingle t (some (.chr ' ')) p).1.edges) := by
  have hlt := (h.nodes p cs hp).1
  rcases insertSingle_cases t (some (.chr ' ')) p with ⟨q, hq, e⟩ | ⟨_, e⟩
  · rw [e]
    obtain ⟨_, h2, h3⟩ := h.sp p cs q hp hq
    exact ⟨den, h, fun _ _ => rfl, (h.ok.wf _ hq).2, h2, h3, Nat.le_refl _, fun e he => Or.inl he, rfl, fun e he => he⟩
  · rw [e]
    refine ⟨_, h.addState p (.chr ' ') hlt (fun e => by simp at e) (fun _ => h0) count (Nat.le_refl _) (fun k e => by cases e), fun q hq => setDen_ne _ _ _ (by omega),
      by dsimp; omega, h.fresh (Nat.le_refl _), fun u => by dsimp only; rw [setDen_eq], by dsimp; omega, fun e he => ?_, rfl, fun e he => List.mem_append_left _ he⟩
    rcases List.mem_append.1 he with he | he
    · exact Or.inl he
    · exact Or.inr (List.mem_singleton.1 he)

/-- The mark of the beginning of a word. -/
structure Opened (t : Trans) (den : Nat → List Sym → Prop) (p : Nat) (x : Trans × Nat) (den' : Nat → List Sym → Prop) : Prop where
  old : ∀ q, q < t.next → den' q = den q
  lt : x.2 < x.1.next
  next : t.next ≤ x.1.next
  exit : ∀ u, den' x.2 u ↔ ∃ v, den p v ∧ (u = v ++ [.chr '^'] ∨ p ≠ 0 ∧ u = v ++ [.chr ' ', .chr '^'])
  finals : x.1.finals = t.finals

theorem Aux.link (h : Aux C t den node count ex) (p q : Nat) (c : Char) (hp : p < t.next) (hq : q < t.next) (hn : node p = none)
    (hs : ∀ u, den p u → den q (u ++ [.chr c])) : Aux C (link t p q (some (.chr c))) den node count ex := by
  unfold Pattern.link
  split
  · exact h
  · exact h.addEdge p q c hp hq hn hs

theorem openWord_aux (h : Aux C t den node count none) (p : Nat) (cs : List Text) (hp : node p = some cs) :
    ∃ den', Aux C (openWord t p).1 den' node count none ∧ Opened t den p (openWord t p) den' := by
  have hlt := (h.nodes p cs hp).1
  unfold openWord
  dsimp only
  rcases insertSingle_cases t (some (.chr '^')) p with ⟨q, hq, e⟩ | ⟨hno, e⟩
  · -- the edge exists
    rw [e]
    have hq2 := (h.ok.wf _ hq).2
    dsimp only at hq2 ⊢
    have hden := h.hat p cs q hp (by simp) hq
    split
    · rename_i h0
      obtain ⟨den', h1, h2, h3, h4, h5, h6, _, h8, _⟩ := h.blank p cs hp h0
      have hd2 : den' q = den q := h2 q hq2
      refine ⟨den', h1.link _ q '^' h3 (by omega) h4 (fun u hu => ?_), h2, ?_, ?_, fun u => by dsimp only; rw [hd2]; exact hden u, ?_⟩
      · obtain ⟨v, hv, rfl⟩ := (h5 u).1 hu
        rw [hd2]
        exact (hden _).2 ⟨v, hv, Or.inr ⟨h0, by simp⟩⟩
      · unfold Pattern.link; dsimp only; split <;> exact Nat.lt_of_lt_of_le hq2 h6
      · unfold Pattern.link; dsimp only; split <;> exact h6
      · unfold Pattern.link; dsimp only; split <;> exact h8
    · exact ⟨den, h, fun _ _ => rfl, hq2, Nat.le_refl _, hden, rfl⟩
  · rw [e]
    dsimp only
    split
    · rename_i h0
      -- a new state, and the blank
      have h1 := (h.weaken (some p)).addState p (.chr '^') hlt (fun _ _ => Or.inl rfl) (fun e => by simp at e) count (Nat.le_refl _) (fun k e => by cases e)
      obtain ⟨den', h2, h3, h4, h5, h6, h7, h8, h9, h10⟩ := h1.blank p cs hp h0
      generalize hy : insertSingle { t with next := t.next + 1, edges := t.edges ++ [(p, some (.chr '^'), t.next)] } (some (.chr ' ')) p = y at *
      dsimp only at h3 h7 h8 h9
      have hd : den' t.next = fun u => ∃ v, den p v ∧ u = v ++ [.chr '^'] := by rw [h3 _ (by omega), setDen_eq]
      have hdp : den' p = den p := by rw [h3 p (by omega), setDen_ne _ _ _ (by omega)]
      have hout : ∀ e ∈ y.1.edges, e.1 ≠ t.next := by
        intro e he
        rcases h8 e he with he | rfl
        · rcases List.mem_append.1 he with he | he
          · have := h.ok.wf e he; omega
          · rw [List.mem_singleton.1 he]; dsimp; omega
        · dsimp; omega
      have hne : y.2 ≠ t.next := by
        intro hx
        have hmem : (p, some (Sym.chr ' '), y.2) ∈ y.1.edges := by
          rcases insertSingle_cases { t with next := t.next + 1, edges := t.edges ++ [(p, some (.chr '^'), t.next)] } (some (.chr ' ')) p with ⟨q, hq, e⟩ | ⟨_, e⟩
          · rw [hy] at e; rw [e]; exact hq
          · rw [hy] at e; rw [e]; simp
        rcases h8 _ hmem with he | he
        · rcases List.mem_append.1 he with he | he
          · have := h.ok.wf _ he; dsimp at this; omega
          · simp at he
        · simp only [Prod.mk.injEq] at he
          omega
      have hnot : (y.2, some (Sym.chr '^'), t.next) ∉ y.1.edges := by
        intro he
        rcases h8 _ he with he | he
        · rcases List.mem_append.1 he with he | he
          · have := h.ok.wf _ he; dsimp at this; omega
          · simp only [List.mem_singleton, Prod.mk.injEq] at he
            rw [he.1, hp] at h5
            cases h5
        · simp at he
      have hlink : Pattern.link y.1 y.2 t.next (some (.chr '^')) = { y.1 with edges := y.1.edges ++ [(y.2, some (.chr '^'), t.next)] } := by
        unfold Pattern.link; rw [if_neg hnot]
      rw [hlink]
      have hD := h2.ok.growEdge y.2 t.next (some (.chr '^')) h4 (by omega) hne hout
      have hold : ∀ q, q ≠ t.next → setDen den' t.next (fun u => den' t.next u ∨ ∃ v, den' y.2 v ∧ u = v ++ (some (Sym.chr '^')).toList) q = den' q :=
        fun q hq => setDen_ne _ _ _ hq
      have hexit : ∀ u, (den' t.next u ∨ ∃ v, den' y.2 v ∧ u = v ++ (some (Sym.chr '^')).toList) ↔
          ∃ v, den p v ∧ (u = v ++ [.chr '^'] ∨ p ≠ 0 ∧ u = v ++ [.chr ' ', .chr '^']) := by
        intro u
        rw [hd]
        constructor
        · rintro (⟨v, hv, rfl⟩ | ⟨v, hv, rfl⟩)
          · exact ⟨v, hv, Or.inl rfl⟩
          · obtain ⟨w, hw, rfl⟩ := (h6 v).1 hv
            rw [setDen_ne _ _ _ (by omega)] at hw
            exact ⟨w, hw, Or.inr ⟨h0, by simp⟩⟩
        · rintro ⟨v, hv, rfl | ⟨_, rfl⟩⟩
          · exact Or.inl ⟨v, hv, rfl⟩
          · exact Or.inr ⟨v ++ [.chr ' '], (h6 _).2 ⟨v, by rw [setDen_ne _ _ _ (by omega)]; exact hv, rfl⟩, by simp⟩
      refine ⟨_, ⟨hD, h2.initial, h2.root, ?_, ?_, ?_, ?_⟩, fun q hq => ?_, by dsimp; omega, by dsimp; omega, fun u => ?_, h9⟩
      · intro n cs' hn
        have hlt' := (h.nodes n cs' hn).1
        rw [hold n (by omega)]
        exact h2.nodes n cs' hn
      · intro n cs' x hn _ hx
        have hlt' := (h.nodes n cs' hn).1
        rw [hold n (by omega)]
        rcases List.mem_append.1 hx with hx | hx
        · by_cases hnp : n = p
          · subst hnp
            have : x = t.next := by
              rcases h8 _ hx with hx | hx
              · rcases List.mem_append.1 hx with hx | hx
                · exact absurd hx (hno x)
                · simp at hx; exact hx
              · simp at hx
            subst this
            rw [setDen_eq, hdp]
            exact hexit
          · have hxe : x ≠ t.next := by
              intro hxe
              subst hxe
              rcases h8 _ hx with hx | hx
              · rcases List.mem_append.1 hx with hx | hx
                · have := h.ok.wf _ hx; dsimp at this; omega
                · simp at hx; exact hnp hx
              · simp at hx
            rw [hold x hxe]
            exact h2.hat n cs' x hn (by simp; exact fun e => hnp e.symm) hx
        · simp only [List.mem_singleton, Prod.mk.injEq] at hx
          rw [hx.1, h5] at hn
          cases hn
      · intro n cs' x hn hx
        have hlt' := (h.nodes n cs' hn).1
        rcases List.mem_append.1 hx with hx | hx
        · have hxe : x ≠ t.next := by
            intro hxe
            subst hxe
            rcases h8 _ hx with hx | hx
            · rcases List.mem_append.1 hx with hx | hx
              · have := h.ok.wf _ hx; dsimp at this; omega
              · simp at hx
            · simp only [Prod.mk.injEq] at hx
              omega
          rw [hold n (by omega), hold x hxe]
          exact h2.sp n cs' x hn hx
        · simp at hx
      · intro q k r hx
        rcases List.mem_append.1 hx with hx | hx
        · exact h2.rules q k r hx
        · simp at hx
      · rw [hold q (by omega), h3 q (by omega), setDen_ne _ _ _ (by omega)]
      · dsimp only
        rw [setDen_eq]
        exact hexit u
    · rename_i h0
      have h0 : p = 0 := by simpa using h0
      refine ⟨_, h.addState p (.chr '^') hlt (fun _ _ => Or.inr h0) (fun e => by simp at e) count (Nat.le_refl _) (fun k e => by cases e),
        fun q hq => setDen_ne _ _ _ (by omega), by dsimp; omega, by dsimp; omega, fun u => ?_, rfl⟩
      dsimp only
      rw [setDen_eq]
      simp [h0]

def setNode (node : Nat → Option (List Text)) (n : Nat) (cs : List Text) : Nat → Option (List Text) := fun q => if q = n then some cs else node q

/-- What is needed of the transducer of a category. -/
structure CatOk (c : Trans) : Prop where
  wf : c.Wf
  noRule : ∀ p k q, (p, some (.rule k), q) ∉ c.edges
  noEnd : ∀ p q, (p, some (.chr '$'), q) ∉ c.edges

/-- The state of the reader. -/
structure Inv (cats : Text → Option Trans) (s : RSt) (den : Nat → List Sym → Prop) (node : Nat → Option (List Text)) (count : Nat)
    (done : List (Nat × List Text)) : Prop where
  aux : Aux (fun n s => ∃ c, cats n = some c ∧ c.Accepts s) s.trans den node count none
  states : ∀ p m q, ((p, m), q) ∈ s.states → ∃ cs, node p = some cs ∧ node q = some (m :: cs)
  sound : ∀ f ∈ s.trans.finals, f < s.trans.next ∧ ∃ r cs, (r, cs) ∈ done ∧
    ∀ u, den f u ↔ ∃ v, PatLang (fun n s => ∃ c, cats n = some c ∧ c.Accepts s) cs v ∧ u = v ++ [.rule r]
  complete : ∀ r cs, (r, cs) ∈ done → ∃ r' ≤ r, ∃ f ∈ s.trans.finals,
    ∀ u, den f u ↔ ∃ v, PatLang (fun n s => ∃ c, cats n = some c ∧ c.Accepts s) cs v ∧ u = v ++ [.rule r']
  seen : ∀ n ∈ s.seen, ∃ cs r', node n = some cs ∧ r' < count ∧ ∃ f ∈ s.trans.finals,
    ∀ u, den f u ↔ ∃ v, PatLang (fun n s => ∃ c, cats n = some c ∧ c.Accepts s) cs v ∧ u = v ++ [.rule r']

theorem patternItem_inv {cats : Text → Option Trans} (hcats : ∀ n c, cats n = some c → CatOk c) {s : RSt} {done : List (Nat × List Text)}
    (h : Inv cats s den node count done) (p : Nat) (cs : List Text) (hp : node p = some cs) (m : Text) (s' : RSt) (q : Nat)
    (hx : patternItem cats s p m = some (s', q)) :
    ∃ den' node', Inv cats s' den' node' count done ∧ node' q = some (m :: cs) := by
  unfold patternItem at hx
  cases hf : s.states.find? (fun e => decide (e.1 = (p, m))) with
  | some e =>
    rw [hf] at hx
    simp only [Option.some.injEq, Prod.mk.injEq] at hx
    obtain ⟨rfl, rfl⟩ := hx
    have h1 := List.find?_some hf
    simp only [decide_eq_true_eq] at h1
    obtain ⟨cs', h2, h3⟩ := h.states p m e.2 (by rw [← h1]; exact List.mem_of_find?_eq_some hf)
    rw [hp] at h2
    injection h2 with h2
    subst h2
    exact ⟨den, node, h, h3⟩
  | none =>
    rw [hf] at hx
    dsimp only at hx
    cases hc : cats m with
    | none => rw [hc] at hx; cases hx
    | some c =>
      rw [hc] at hx
      dsimp only at hx
      have hcok := hcats m c hc
      obtain ⟨den1, a1, o1⟩ := openWord_aux h.aux p cs hp
      cases hi : insertTrans (openWord s.trans p).1 (openWord s.trans p).2 c with
      | none => rw [hi] at hx; cases hx
      | some y =>
        rw [hi] at hx
        simp only [Option.some.injEq, Prod.mk.injEq] at hx
        obtain ⟨den2, c2⟩ := insertTrans_copied a1.ok _ o1.lt c hcok.wf y hi
        generalize hX : openWord s.trans p = x at *
        -- the state after the copy
        have a2 : Aux (fun n s => ∃ c, cats n = some c ∧ c.Accepts s) y.1 den2 node count none := {
          ok := c2.ok, initial := by rw [c2.initial]; exact a1.initial, root := a1.root
          nodes := fun n cs hn => by
            obtain ⟨h1, h2, h3⟩ := a1.nodes n cs hn
            rw [c2.old n h1]
            exact ⟨Nat.lt_of_lt_of_le h1 c2.next, h2, h3⟩
          hat := fun n cs z hn hex hz => by
            have hlt := (a1.nodes n cs hn).1
            rcases c2.edges _ hz with he | ⟨_, he⟩ | ⟨he, _⟩
            · rw [c2.old n hlt, c2.old z (a1.ok.wf _ he).2]
              exact a1.hat n cs z hn hex he
            · cases he
            · dsimp at he; omega
          sp := fun n cs z hn hz => by
            have hlt := (a1.nodes n cs hn).1
            rcases c2.edges _ hz with he | ⟨_, he⟩ | ⟨he, _⟩
            · rw [c2.old n hlt, c2.old z (a1.ok.wf _ he).2]
              exact a1.sp n cs z hn he
            · cases he
            · dsimp at he; omega
          rules := fun p k q hz => by
            rcases c2.edges _ hz with he | ⟨_, he⟩ | ⟨_, he | ⟨e', he, hs⟩⟩
            · exact a1.rules p k q he
            · cases he
            · cases he
            · simp only [shift, Prod.mk.injEq] at hs
              exact absurd (hs.2.1 ▸ he) (hcok.noRule e'.1 k e'.2.2) }
        -- the end of the word
        have hnew : ∀ z, (y.2, some (Sym.chr '$'), z) ∉ y.1.edges := by
          intro z hz
          have hge := c2.new
          rcases c2.edges _ hz with he | ⟨_, he⟩ | ⟨_, he | ⟨e', he, hs⟩⟩
          · have := a1.ok.wf _ he; dsimp at this; omega
          · cases he
          · cases he
          · simp only [shift, Prod.mk.injEq] at hs
            exact hcok.noEnd e'.1 e'.2.2 (hs.2.1 ▸ he)
        rcases insertSingle_cases y.1 (some (.chr '$')) y.2 with ⟨z, hz, _⟩ | ⟨_, e⟩
        · exact absurd hz (hnew z)
        rw [e] at hx
        obtain ⟨rfl, rfl⟩ := hx
        have a3 := a2.addState y.2 (.chr '$') c2.lt (fun e => by simp at e) (fun e => by simp at e) count (Nat.le_refl _) (fun k e => by cases e)
        have hold : ∀ n, n < s.trans.next → setDen den2 y.1.next (fun u => ∃ v, den2 y.2 v ∧ u = v ++ [.chr '$']) n = den n := by
          intro n hn
          have h1 := o1.next
          have h2 := c2.next
          rw [setDen_ne _ _ _ (by omega), c2.old n (by omega), o1.old n hn]
        have hnode : ∀ n cs, node n = some cs → setNode node y.1.next (m :: cs) n = some cs → True := fun _ _ _ _ => trivial
        have hne : ∀ n cs', node n = some cs' → n ≠ y.1.next := fun n cs' hn => by have := (a2.nodes n cs' hn).1; omega
        have hset : ∀ n cs', node n = some cs' → setNode node y.1.next (m :: cs) n = some cs' := fun n cs' hn => by
          unfold setNode; rw [if_neg (hne n cs' hn)]; exact hn
        have hpn := (h.aux.nodes p cs hp)
        have hlang : ∀ u, (∃ v, den2 y.2 v ∧ u = v ++ [Sym.chr '$']) ↔ PatLang (fun n s => ∃ c, cats n = some c ∧ c.Accepts s) (m :: cs) u := by
          intro u
          have hden1 : ∀ u, den1 x.2 u ↔ ∃ v, PatLang (fun n s => ∃ c, cats n = some c ∧ c.Accepts s) cs v ∧
              (u = v ++ [.chr '^'] ∨ cs ≠ [] ∧ u = v ++ [.chr ' ', .chr '^']) := by
            intro u
            rw [o1.exit u]
            simp only [hpn.2.2, ne_eq, hpn.2.1]
          constructor
          · rintro ⟨v, hv, rfl⟩
            obtain ⟨w, t, h1, h2, rfl⟩ := (c2.exit v).1 hv
            obtain ⟨b, h3, rfl | ⟨h4, rfl⟩⟩ := (hden1 w).1 h1
            · have := PatLang.cons (C := fun n s => ∃ c, cats n = some c ∧ c.Accepts s) (b := []) h3 ⟨c, hc, h2⟩ (Or.inl rfl)
              simpa using this
            · have := PatLang.cons (C := fun n s => ∃ c, cats n = some c ∧ c.Accepts s) (b := [.chr ' ']) h3 ⟨c, hc, h2⟩ (Or.inr ⟨h4, rfl⟩)
              simpa using this
          · intro hu
            cases hu with
            | @cons n ns w b t h1 h2 h3 =>
              obtain ⟨c', hc', h2⟩ := h2
              rw [hc] at hc'
              injection hc' with hc'
              subst hc'
              refine ⟨w ++ b ++ .chr '^' :: t, (c2.exit _).2 ⟨w ++ b ++ [.chr '^'], t, (hden1 _).2 ⟨w, h1, ?_⟩, h2, by simp⟩, rfl⟩
              rcases h3 with rfl | ⟨h3, rfl⟩
              · exact Or.inl (by simp)
              · exact Or.inr ⟨h3, by simp⟩
        refine ⟨_, setNode node y.1.next (m :: cs), ⟨⟨a3.ok, a3.initial, hset 0 [] a3.root, ?_, ?_, ?_, a3.rules⟩, ?_, ?_, ?_, ?_⟩, if_pos rfl⟩
        · intro n cs' hn
          by_cases e : n = y.1.next
          · subst e
            have : cs' = m :: cs := by simpa [setNode] using hn.symm
            subst this
            rw [setDen_eq]
            exact ⟨by dsimp; omega, ⟨fun e => by have := a2.ok.pos; omega, fun e => by cases e⟩, hlang⟩
          · unfold setNode at hn
            rw [if_neg e] at hn
            exact a3.nodes n cs' hn
        · intro n cs' z hn hex hz
          by_cases e : n = y.1.next
          · subst e
            rcases List.mem_append.1 hz with hz | hz
            · have := (a2.ok.wf _ hz).1; dsimp at this; omega
            · simp at hz
          · unfold setNode at hn
            rw [if_neg e] at hn
            exact a3.hat n cs' z hn hex hz
        · intro n cs' z hn hz
          by_cases e : n = y.1.next
          · subst e
            rcases List.mem_append.1 hz with hz | hz
            · have := (a2.ok.wf _ hz).1; dsimp at this; omega
            · simp at hz
          · unfold setNode at hn
            rw [if_neg e] at hn
            obtain ⟨h1, h2, h3⟩ := a3.sp n cs' z hn hz
            refine ⟨h1, ?_, h3⟩
            have : z ≠ y.1.next := by
              rcases List.mem_append.1 hz with hz | hz
              · have := (a2.ok.wf _ hz).2; dsimp at this; omega
              · simp at hz
            unfold setNode
            rw [if_neg this]
            exact h2
        · intro p' m' q' he
          simp only [List.mem_cons, Prod.mk.injEq] at he
          rcases he with ⟨⟨rfl, rfl⟩, rfl⟩ | he
          · exact ⟨cs, hset _ _ hp, if_pos rfl⟩
          · obtain ⟨cs', h1, h2⟩ := h.states p' m' q' he
            exact ⟨cs', hset _ _ h1, hset _ _ h2⟩
        · intro f hf
          dsimp only at hf
          rw [c2.finals, o1.finals] at hf
          obtain ⟨h1, h2⟩ := h.sound f hf
          have h3 := o1.next
          have h4 := c2.next
          rw [hold f h1]
          exact ⟨by dsimp; omega, h2⟩
        · intro r cs' hr
          obtain ⟨r', h1, f, h2, h3⟩ := h.complete r cs' hr
          refine ⟨r', h1, f, by dsimp only; rw [c2.finals, o1.finals]; exact h2, ?_⟩
          rw [hold f (h.sound f h2).1]
          exact h3
        · intro n hn
          obtain ⟨cs', r', h1, h2, f, h3, h4⟩ := h.seen n hn
          refine ⟨cs', r', hset n cs' h1, h2, f, by dsimp only; rw [c2.finals, o1.finals]; exact h3, ?_⟩
          rw [hold f (h.sound f h3).1]
          exact h4

theorem patternItems_inv {cats : Text → Option Trans} (hcats : ∀ n c, cats n = some c → CatOk c) {done : List (Nat × List Text)} (ms : List Text) {s : RSt}
    {den : Nat → List Sym → Prop} {node : Nat → Option (List Text)}
    (h : Inv cats s den node count done) (p : Nat) (cs : List Text) (hp : node p = some cs) (s' : RSt) (q : Nat)
    (hx : patternItems cats s p ms = some (s', q)) :
    ∃ den' node', Inv cats s' den' node' count done ∧ node' q = some (ms.reverse ++ cs) := by
  induction ms generalizing s den node p cs with
  | nil =>
    simp only [patternItems, Option.some.injEq, Prod.mk.injEq] at hx
    obtain ⟨rfl, rfl⟩ := hx
    exact ⟨den, node, h, hp⟩
  | cons m ms ih =>
    rw [patternItems] at hx
    cases hy : patternItem cats s p m with
    | none => rw [hy] at hx; cases hx
    | some y =>
      rw [hy] at hx
      obtain ⟨den1, node1, h1, h2⟩ := patternItem_inv hcats h p cs hp m y.1 y.2 hy
      obtain ⟨den2, node2, h3, h4⟩ := ih h1 y.2 (m :: cs) h2 hx
      exact ⟨den2, node2, h3, by simpa using h4⟩

theorem pattern_inv {cats : Text → Option Trans} (hcats : ∀ n c, cats n = some c → CatOk c) {done : List (Nat × List Text)} (ms : List Text) {s : RSt}
    (h : Inv cats s den node count done) (s' : RSt) (hx : pattern cats s count ms = some s') :
    ∃ den' node', Inv cats s' den' node' (count + 1) (done ++ [(count, ms.reverse)]) := by
  unfold pattern at hx
  cases hy : patternItems cats s 0 ms with
  | none => rw [hy] at hx; cases hx
  | some y =>
    rw [hy] at hx
    simp only [Option.map_some, Option.some.injEq] at hx
    obtain ⟨den1, node1, h1, h2⟩ := patternItems_inv hcats ms h 0 [] h.aux.root y.1 y.2 hy
    rw [List.append_nil] at h2
    have hlt := h1.aux.nodes _ _ h2
    split at hx
    · rename_i hseen
      subst hx
      obtain ⟨cs, r', h3, h4, f, h5, h6⟩ := h1.seen _ hseen
      rw [h2] at h3
      injection h3 with h3
      subst h3
      refine ⟨den1, node1, { h1.aux with rules := fun p k q he => Nat.lt_succ_of_lt (h1.aux.rules p k q he) }, h1.states, ?_, ?_, ?_⟩
      · intro f hf
        obtain ⟨h7, r, cs, h8, h9⟩ := h1.sound f hf
        exact ⟨h7, r, cs, by simp [h8], h9⟩
      · intro r cs hr
        rcases List.mem_append.1 hr with hr | hr
        · exact h1.complete r cs hr
        · simp only [List.mem_singleton, Prod.mk.injEq] at hr
          obtain ⟨rfl, rfl⟩ := hr
          exact ⟨r', Nat.le_of_lt h4, f, h5, h6⟩
      · intro n hn
        obtain ⟨cs', r', h1, h2, h3⟩ := h1.seen n hn
        exact ⟨cs', r', h1, by omega, h3⟩
    · rename_i hseen
      rcases insertSingle_cases y.1.trans (some (.rule count)) y.2 with ⟨z, hz, _⟩ | ⟨_, e⟩
      · exact absurd (h1.aux.rules _ _ _ hz) (by omega)
      rw [e] at hx
      subst hx
      have a2 := h1.aux.addState y.2 (.rule count) hlt.1 (fun e => by cases e) (fun e => by cases e) (count + 1) (by omega)
        (fun k e => by injection e with e; omega)
      have hold : ∀ n, n < y.1.trans.next → setDen den1 y.1.trans.next (fun u => ∃ v, den1 y.2 v ∧ u = v ++ [.rule count]) n = den1 n :=
        fun n hn => setDen_ne _ _ _ (by omega)
      have hnew : ∀ u, setDen den1 y.1.trans.next (fun u => ∃ v, den1 y.2 v ∧ u = v ++ [.rule count]) y.1.trans.next u ↔
          ∃ v, PatLang (fun n s => ∃ c, cats n = some c ∧ c.Accepts s) ms.reverse v ∧ u = v ++ [.rule count] := by
        intro u
        rw [setDen_eq]
        simp only [hlt.2.2]
      refine ⟨_, node1, ⟨a2.ok, a2.initial, a2.root, a2.nodes, a2.hat, a2.sp, a2.rules⟩, h1.states, ?_, ?_, ?_⟩
      · intro f hf
        simp only [setFinal, List.mem_cons] at hf
        rcases hf with rfl | hf
        · exact ⟨by dsimp [setFinal]; omega, count, ms.reverse, by simp, hnew⟩
        · obtain ⟨h7, r, cs, h8, h9⟩ := h1.sound f hf
          rw [hold f h7]
          exact ⟨by dsimp [setFinal]; omega, r, cs, by simp [h8], h9⟩
      · intro r cs hr
        rcases List.mem_append.1 hr with hr | hr
        · obtain ⟨r', h3, f, h4, h5⟩ := h1.complete r cs hr
          refine ⟨r', h3, f, by simp [setFinal, h4], ?_⟩
          rw [hold f (h1.sound f h4).1]
          exact h5
        · simp only [List.mem_singleton, Prod.mk.injEq] at hr
          obtain ⟨rfl, rfl⟩ := hr
          exact ⟨r, Nat.le_refl _, _, by simp [setFinal], hnew⟩
      · intro n hn
        simp only [List.mem_cons] at hn
        rcases hn with rfl | hn
        · exact ⟨ms.reverse, count, h2, by omega, _, by simp [setFinal], hnew⟩
        · obtain ⟨cs', r', h3, h4, f, h5, h6⟩ := h1.seen n hn
          refine ⟨cs', r', h3, by omega, f, by simp [setFinal, h5], ?_⟩
          rw [hold f (h1.sound f h5).1]
          exact h6

/-- The rules with their numbers. -/
def numbered : Nat → List (List Text) → List (Nat × List Text)
  | _, [] => []
  | k, ms :: r => (k, ms.reverse) :: numbered (k + 1) r

theorem procRules_inv {cats : Text → Option Trans} (hcats : ∀ n c, cats n = some c → CatOk c) (rules : List (List Text)) {done : List (Nat × List Text)} {s : RSt}
    {den : Nat → List Sym → Prop} {node : Nat → Option (List Text)} {count : Nat} (h : Inv cats s den node count done) (s' : RSt)
    (hx : procRules cats count s rules = some s') :
    ∃ den' node', Inv cats s' den' node' (count + rules.length) (done ++ numbered count rules) := by
  induction rules generalizing s den node count done with
  | nil =>
    simp only [procRules, Option.some.injEq] at hx
    subst hx
    exact ⟨den, node, by simpa [numbered] using h⟩
  | cons ms r ih =>
    rw [procRules] at hx
    cases hy : pattern cats s count ms with
    | none => rw [hy] at hx; cases hx
    | some y =>
      rw [hy] at hx
      obtain ⟨den1, node1, h1⟩ := pattern_inv hcats ms h y hy
      obtain ⟨den2, node2, h2⟩ := ih h1 hx
      refine ⟨den2, node2, ?_⟩
      rw [List.length_cons, Nat.add_comm r.length 1, ← Nat.add_assoc]
      simpa [numbered] using h2

theorem init_inv (cats : Text → Option Trans) : Inv cats {} (fun q u => q = 0 ∧ u = []) (fun n => if n = 0 then some [] else none) 1 [] where
  aux := {
    ok := { pos := by decide, wf := by simp, zero := ⟨rfl, rfl⟩, sound := by simp
            complete := fun q hq u hu => by obtain ⟨rfl, rfl⟩ := hu; exact .nil _ }
    initial := rfl
    root := rfl
    nodes := fun n cs hn => by
      split at hn
      · rename_i h
        injection hn with hn
        subst hn
        subst h
        refine ⟨by decide, by simp, fun u => ?_⟩
        constructor
        · rintro ⟨_, rfl⟩; exact .nil
        · intro h; cases h; exact ⟨rfl, rfl⟩
      · cases hn
    hat := by simp
    sp := by simp
    rules := by simp }
  states := by simp
  sound := by simp
  complete := by simp
  seen := by simp

/-- What the transducer of the rules accepts: a pattern and the number of a rule; for each rule, its own or that of an earlier rule. -/
theorem procRules_accepts {cats : Text → Option Trans} (hcats : ∀ n c, cats n = some c → CatOk c) (rules : List (List Text)) (s : RSt)
    (hx : procRules cats 1 {} rules = some s) :
    (∀ u, s.trans.Accepts u → ∃ r cs v, (r, cs) ∈ numbered 1 rules ∧ PatLang (fun n s => ∃ c, cats n = some c ∧ c.Accepts s) cs v ∧ u = v ++ [.rule r]) ∧
    (∀ r cs, (r, cs) ∈ numbered 1 rules → ∃ r' ≤ r, ∀ v, PatLang (fun n s => ∃ c, cats n = some c ∧ c.Accepts s) cs v → s.trans.Accepts (v ++ [.rule r'])) := by
  obtain ⟨den, node, h⟩ := procRules_inv hcats rules (init_inv cats) s hx
  rw [List.nil_append] at h
  constructor
  · rintro u ⟨f, hf, hp⟩
    rw [h.aux.initial] at hp
    obtain ⟨h1, r, cs, h2, h3⟩ := h.sound f hf
    obtain ⟨v, h4, h5⟩ := (h3 u).1 ((h.aux.ok.iff h1 u).2 hp)
    exact ⟨r, cs, v, h2, h4, h5⟩
  · intro r cs hr
    obtain ⟨r', h1, f, h2, h3⟩ := h.complete r cs hr
    refine ⟨r', h1, fun v hv => ⟨f, h2, ?_⟩⟩
    rw [h.aux.initial]
    exact (h.aux.ok.iff (h.sound f h2).1 _).1 ((h3 _).2 ⟨v, hv, rfl⟩)

end Verif.Pattern
