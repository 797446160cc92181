import Verif.Crx.Auto
/-!
# The language of the compiled rules
-/
namespace Verif.Crx

/-- What the compiler adds for the parts of a `match`: a label, a label once or more, a label any number of times. -/
inductive StepT where
  | one (a : Lab)
  | plus (a : Lab)
  | star (a : Lab)

def doStep : StepT → Trans × Nat → Trans × Nat
  | .one a, x => insertSingle a x
  | .plus a, x => let y := insertSingle a x; (link y.1 y.2 y.2 (some a), y.2)
  | .star a, x => let y := insertNew x; (link y.1 y.2 y.2 (some a), y.2)

/-- The edges from the end, if those from the beginning are `l`. -/
def afterStep (l : Option Lab) : StepT → Option Lab
  | .one a => if l = some a then l else none
  | .plus a => some a
  | .star a => some a

/-- What is added, if the edges from the beginning are `l`. -/
def stepLang (l : Option Lab) : StepT → Lang
  | .one a => if l = some a then Lang.one else fun s => s = [a]
  | .plus a => if l = some a then Lang.one else Lang.cat (fun s => s = [a]) (Lang.star a)
  | .star a => Lang.cat Lang.one (Lang.star a)

def stepsLang : Option Lab → List StepT → Lang
  | _, [] => Lang.one
  | l, s :: ss => Lang.cat (stepLang l s) (stepsLang (afterStep l s) ss)

theorem At.doStep {t : Trans} {den : Nat → List Lab → Prop} {p : Nat} {l : Option Lab} (h : At t den p l) (s : StepT) :
    ∃ den', Ext t den p (doStep s (t, p)) den' (afterStep l s) (stepLang l s) := by
  cases s with
  | one a =>
    unfold Crx.doStep afterStep stepLang
    by_cases e : l = some a
    · subst e
      simp only [if_pos]
      rw [h.single_loop]
      exact ⟨den, h.refl⟩
    · simp only [if_neg e]
      exact h.single a e
  | plus a =>
    unfold Crx.doStep afterStep stepLang
    by_cases e : l = some a
    · subst e
      simp only [if_pos]
      rw [h.single_loop]
      dsimp only
      unfold link
      rw [if_pos (h.loop a rfl)]
      exact ⟨den, h.refl⟩
    · simp only [if_neg e]
      obtain ⟨den', h'⟩ := h.single a e
      refine h'.addLoop ?_ a
      unfold insertSingle
      rw [find_none h.out e]
      exact Nat.le_refl _
  | star a =>
    unfold Crx.doStep afterStep stepLang
    obtain ⟨den', h'⟩ := At.insertNew h.ok h.lt
    exact h'.addLoop (Nat.le_refl _) a

theorem At.doSteps {t : Trans} {den : Nat → List Lab → Prop} {p : Nat} {l : Option Lab} (h : At t den p l) (ss : List StepT) :
    ∃ den', Ext t den p (ss.foldl (fun x s => Crx.doStep s x) (t, p)) den' (ss.foldl afterStep l) (stepsLang l ss) := by
  induction ss generalizing t den p l with
  | nil => exact ⟨den, h.refl⟩
  | cons s ss ih =>
    obtain ⟨den', h1⟩ := h.doStep s
    obtain ⟨den'', h2⟩ := ih h1.here
    exact ⟨den'', h1.trans h2⟩

/-! ## The steps of a `match` -/

def capsStep (upper : Nat → Bool) (n : Nat) : StepT :=
  if n = '*'.toNat then .plus (.inp anyChar)
  else if n = ' '.toNat then .plus (.inp (.chr n))
  else if upper n = true then .plus (.inp anyUpper)
  else .plus (.inp anyLower)

def capsSteps (upper : Nat → Bool) (t : Text) : List StepT := (t.flatMap units).map (capsStep upper)

def globStep (n : Nat) : StepT := if n = '*'.toNat then .plus (.inp anyChar) else .one (.inp (.chr n))

def globSteps (t : Text) : List StepT := (t.flatMap units).map globStep

def tagStep (t : Text) : List StepT :=
  if t = t!"+" then [.plus (.inp anyTag)]
  else if t = t!"*" then [.star (.inp anyTag)]
  else if t = t!"?" then [.one (.inp anyTag)]
  else if t = [] then []
  else [.one (.inp (.tag (t!"<" ++ t ++ t!">")))]

def slash : StepT := .one (.inp (.chr '/'.toNat))

def textSteps (upper : Nat → Bool) (pat spec : Text) : List StepT := if pat = t!"*" then capsSteps upper spec else globSteps pat

def Match.steps (upper : Nat → Bool) (m : Match) : List StepT :=
  capsSteps upper m.srcsurf ++ slash :: (capsSteps upper m.srclem ++ slash :: (textSteps upper m.lem m.trglem ++ (m.tags.flatMap tagStep ++
    slash :: textSteps upper m.surf m.trgsurf)))

theorem capsSpec_steps (upper : Nat → Bool) (t : Text) (x : Trans × Nat) : capsSpec upper t x = (capsSteps upper t).foldl (fun x s => doStep s x) x := by
  unfold capsSpec capsSteps
  rw [List.foldl_map]
  congr 1
  funext x n
  unfold capsUnit capsStep
  split
  · rfl
  · split
    · rfl
    · split <;> rfl

theorem globText_steps (t : Text) (x : Trans × Nat) : globText t x = (globSteps t).foldl (fun x s => doStep s x) x := by
  unfold globText globSteps
  rw [List.foldl_map]
  congr 1
  funext x n
  unfold globUnit globStep
  split <;> rfl

theorem tags_steps (ts : List Text) (x : Trans × Nat) : ts.foldl (fun x t => tagItem t x) x = (ts.flatMap tagStep).foldl (fun x s => doStep s x) x := by
  induction ts generalizing x with
  | nil => rfl
  | cons t ts ih =>
    rw [List.foldl_cons, List.flatMap_cons, List.foldl_append, ih]
    congr 1
    unfold tagItem tagStep
    split
    · rfl
    · split
      · rfl
      · split
        · rfl
        · split <;> rfl

theorem text_steps (upper : Nat → Bool) (pat spec : Text) (x : Trans × Nat) :
    (if pat = t!"*" then capsSpec upper spec x else globText pat x) = (textSteps upper pat spec).foldl (fun x s => doStep s x) x := by
  unfold textSteps
  split
  · exact capsSpec_steps ..
  · exact globText_steps ..

/-- The attributes do not contradict each other. -/
def Match.Agree (m : Match) : Prop := (m.lem = t!"*" ∨ m.trglem = t!"*") ∧ (m.surf = t!"*" ∨ m.trgsurf = t!"*")

theorem compileMatch_some {upper : Nat → Bool} {m : Match} {x y : Trans × Nat} (h : compileMatch upper m x = some y) :
    m.Agree ∧ ∃ k, selectMark m.select = some k ∧ y = (m.steps upper ++ [StepT.one .bound, StepT.one (.mark k)]).foldl (fun x s => doStep s x) x := by
  unfold compileMatch at h
  split at h
  · cases h
  rename_i h1
  split at h
  · cases h
  rename_i h2
  refine ⟨⟨by by_cases e : m.lem = t!"*" <;> simp_all, by by_cases e : m.surf = t!"*" <;> simp_all⟩, ?_⟩
  simp only [text_steps] at h
  simp only [capsSpec_steps, tags_steps] at h
  cases hs : selectMark m.select with
  | none => rw [hs] at h; cases h
  | some k =>
    rw [hs] at h
    simp only [Option.map_some, Option.some.injEq] at h
    refine ⟨k, rfl, ?_⟩
    rw [← h]
    unfold Match.steps slash
    simp only [List.foldl_append, List.foldl_cons, List.foldl_nil, doStep]

theorem compileMatch_ok {upper : Nat → Bool} {m : Match} (x : Trans × Nat) (ha : m.Agree) {k : Caps.Mark} (hk : selectMark m.select = some k) :
    (compileMatch upper m x).isSome = true := by
  unfold compileMatch
  rw [if_neg (by rcases ha.1 with e | e <;> simp [e]), if_neg (by rcases ha.2 with e | e <;> simp [e]), hk]
  rfl

/-! ## Languages -/

/-- `n` times. -/
def Lang.pow (L : Lang) : Nat → Lang
  | 0 => Lang.one
  | n + 1 => Lang.cat L (Lang.pow L n)

mutual
def Node.lang (upper : Nat → Bool) : Node → Lang
  | .word m => fun s => ∃ k, selectMark m.select = some k ∧ stepsLang none (m.steps upper ++ [.one .bound, .one (.mark k)]) s
  | .start => fun s => s = [.inp nullBoundary]
  | .or cs => fun s => (cs = [] ∧ s = []) ∨ anyLang upper cs s
  | .rep lo hi cs => fun s => ∃ n : Nat, lo ≤ n ∧ n ≤ hi ∧ Lang.pow (seqLang upper cs) n s

def anyLang (upper : Nat → Bool) : List Node → Lang
  | [] => fun _ => False
  | c :: cs => fun s => c.lang upper s ∨ anyLang upper cs s

def seqLang (upper : Nat → Bool) : List Node → Lang
  | [] => Lang.one
  | c :: cs => Lang.cat (c.lang upper) (seqLang upper cs)
end

/-! ## Copies -/

/-- A transducer with one final state, from which there is no edge. -/
structure Single (c : Trans) (f : Nat) : Prop where
  wf : c.Wf
  finals : c.finals = [f]
  out : Out c f none

theorem insertTrans_ext {t : Trans} {den : Nat → List Lab → Prop} {p : Nat} (h : At t den p none) {c : Trans} {f : Nat} (hc : Single c f) :
    ∃ y den', insertTrans c (t, p) = some y ∧ Ext t den p y den' none c.Accepts := by
  unfold insertTrans
  rw [hc.finals]
  have hfl := hc.wf.finals f (by simp [hc.finals])
  refine ⟨_, copyDen den t.next p c, rfl, h.ok.copy p h.lt c hc.wf, ?_, ?_, ?_, ?_, ?_, ?_, fun a ha => (by cases ha), ?_, rfl, rfl⟩
  · intro q hq; funext u; unfold copyDen; rw [if_pos hq]
  · intro u
    dsimp only
    unfold copyDen Trans.Accepts
    rw [if_neg (by omega), Nat.add_sub_cancel, hc.finals]
    simp
  · dsimp only; omega
  · dsimp only; omega
  · exact Or.inr (by dsimp only; omega)
  · intro e he hx
    simp only [List.mem_append, List.mem_cons, List.mem_map] at he
    dsimp only at hx
    rcases he with he | rfl | ⟨e', he, rfl⟩
    · have := (h.ok.wf e he).1; omega
    · have := h.lt; dsimp only at hx; omega
    · have e1 : (Crx.shift t.next e').1 = e'.1 + t.next := rfl
      obtain ⟨a, ha, _⟩ := hc.out e' he (by omega)
      cases ha
  · intro e he
    simp only [List.mem_append, List.mem_cons, List.mem_map] at he
    rcases he with he | rfl | ⟨e', he, rfl⟩
    · exact Or.inl he
    · exact Or.inr (Or.inl rfl)
    · exact Or.inr (Or.inr (by simp [Crx.shift]))

theorem times_ext {c : Trans} {f : Nat} (hc : Single c f) (n : Nat) {t : Trans} {den : Nat → List Lab → Prop} {p : Nat} (h : At t den p none) :
    ∃ y den', timesOpt (insertTrans c) n (t, p) = some y ∧ Ext t den p y den' none (Lang.pow c.Accepts n) := by
  induction n generalizing t den p with
  | zero => exact ⟨_, _, rfl, h.refl⟩
  | succ n ih =>
    obtain ⟨y, den', h1, h2⟩ := insertTrans_ext h hc
    obtain ⟨z, den'', h3, h4⟩ := ih h2.here
    refine ⟨z, den'', ?_, h2.trans h4⟩
    rw [timesOpt, h1]
    exact h3

theorem free {t : Trans} {q : Nat} (h : Out t q none) : ∀ e ∈ t.edges, e.1 ≠ q := by
  intro e he hx
  obtain ⟨a, ha, _⟩ := h e he hx
  cases ha

/-- `optional`. -/
theorem optional_single {c : Trans} {f : Nat} (hc : Single c f) :
    ∃ c' f', optional c = some c' ∧ Single c' f' ∧ ∀ s, c'.Accepts s ↔ s = [] ∨ c.Accepts s := by
  unfold optional
  rw [hc.finals]
  have hfl := hc.wf.finals f (by simp [hc.finals])
  have hi := hc.wf.initial
  dsimp only
  generalize hE : c.edges ++ [(c.next, none, c.initial), (f, none, c.next + 1), (c.next, none, c.next + 1)] = E
  have hmem : ∀ e, e ∈ E ↔ e ∈ c.edges ∨ e = (c.next, none, c.initial) ∨ e = (f, none, c.next + 1) ∨ e = (c.next, none, c.next + 1) := by
    intro e; rw [← hE]; simp
  have hend : ∀ s q, Path E (c.next + 1) s q → s = [] ∧ q = c.next + 1 := by
    have : ∀ e ∈ E, e.1 ≠ c.next + 1 := by
      intro e he hx
      rcases (hmem e).1 he with h | rfl | rfl | rfl
      · have := (hc.wf.edges e h).1; omega
      · dsimp only at hx; omega
      · dsimp only at hx; omega
      · dsimp only at hx; omega
    intro s q hp
    cases hp with
    | nil => exact ⟨rfl, rfl⟩
    | eps he _ => exact absurd rfl (this _ he)
    | step he _ => exact absurd rfl (this _ he)
  have hin : ∀ p s q, Path E p s q → p < c.next → q = c.next + 1 → Path c.edges p s f := by
    intro p s q hp
    induction hp with
    | nil p => intro h1 h2; omega
    | @eps p q r s he hp ih =>
      intro h1 h2
      rcases (hmem _).1 he with h | h | h | h
      · exact .eps h (ih (hc.wf.edges _ h).2 h2)
      · simp only [Prod.mk.injEq] at h; omega
      · simp only [Prod.mk.injEq] at h
        rw [h.2.2] at hp
        rw [h.1, (hend _ _ hp).1]
        exact .nil _
      · simp only [Prod.mk.injEq] at h; omega
    | @step p q r a s he hp ih =>
      intro h1 h2
      rcases (hmem _).1 he with h | h | h | h
      · exact .step h (ih (hc.wf.edges _ h).2 h2)
      · simp at h
      · simp at h
      · simp at h
  refine ⟨_, c.next + 1, rfl, ⟨⟨by dsimp only; omega, ?_, by simp⟩, rfl, ?_⟩, ?_⟩
  · intro e he
    dsimp only at he ⊢
    rcases (hmem e).1 he with h | rfl | rfl | rfl
    · have := hc.wf.edges e h; omega
    · dsimp only; omega
    · dsimp only; omega
    · dsimp only; omega
  · intro e he hx
    dsimp only at he
    rcases (hmem e).1 he with h | rfl | rfl | rfl
    · have := (hc.wf.edges e h).1; omega
    · dsimp only at hx; omega
    · dsimp only at hx; omega
    · dsimp only at hx; omega
  · intro s
    unfold Trans.Accepts
    rw [hc.finals]
    simp only [List.mem_singleton, exists_eq_left]
    constructor
    · have hst : ∀ p s q, Path E p s q → p = c.next → q = c.next + 1 → s = [] ∨ Path c.edges c.initial s f := by
        intro p s q hp h1 h2
        cases hp with
        | nil => omega
        | eps he hp =>
          rcases (hmem _).1 he with h | h | h | h
          · have := (hc.wf.edges _ h).1; dsimp only at this; omega
          · simp only [Prod.mk.injEq] at h
            rw [h.2.2] at hp
            exact Or.inr (hin _ _ _ hp hi h2)
          · simp only [Prod.mk.injEq] at h; omega
          · simp only [Prod.mk.injEq] at h
            rw [h.2.2] at hp
            exact Or.inl (hend _ _ hp).1
        | step he hp =>
          rcases (hmem _).1 he with h | h | h | h
          · have := (hc.wf.edges _ h).1; dsimp only at this; omega
          · simp at h
          · simp at h
          · simp at h
      exact fun hp => hst _ _ _ hp rfl rfl
    · rintro (rfl | hp)
      · exact .eps ((hmem _).2 (by simp)) (.nil _)
      · have h1 : Path E c.initial s f := hp.mono (fun e he => (hmem e).2 (Or.inl he))
        have h2 : Path E c.initial (s ++ []) (c.next + 1) := h1.append (.eps ((hmem _).2 (by simp)) (.nil _))
        rw [List.append_nil] at h2
        exact .eps ((hmem _).2 (by simp)) h2

/-! ## Powers -/

theorem Lang.cat_assoc {A B C : Lang} {s : List Lab} (h : Lang.cat (Lang.cat A B) C s) : Lang.cat A (Lang.cat B C) s := by
  obtain ⟨x, z, rfl, ⟨x', y, rfl, h1, h2⟩, h3⟩ := h
  exact ⟨x', y ++ z, by simp, h1, y, z, rfl, h2, h3⟩

theorem Lang.pow_add {L : Lang} (m n : Nat) (s : List Lab) : Lang.cat (Lang.pow L m) (Lang.pow L n) s ↔ Lang.pow L (m + n) s := by
  induction m generalizing s with
  | zero =>
    rw [Nat.zero_add]
    constructor
    · rintro ⟨x, y, rfl, h1, h2⟩
      rw [show x = [] from h1]; exact h2
    · intro h; exact ⟨[], s, rfl, rfl, h⟩
  | succ m ih =>
    rw [Nat.add_right_comm]
    constructor
    · intro h
      obtain ⟨x, y, rfl, h1, h2⟩ := Lang.cat_assoc h
      exact ⟨x, y, rfl, h1, (ih y).1 h2⟩
    · rintro ⟨x, y, rfl, h1, h2⟩
      obtain ⟨x', y', rfl, h3, h4⟩ := (ih y).2 h2
      exact ⟨x ++ x', y', by simp, ⟨x, x', rfl, h1, h3⟩, h4⟩

theorem Lang.pow_opt {L : Lang} (n : Nat) (s : List Lab) : Lang.pow (fun s => s = [] ∨ L s) n s ↔ ∃ k, k ≤ n ∧ Lang.pow L k s := by
  induction n generalizing s with
  | zero =>
    constructor
    · intro h; exact ⟨0, Nat.le_refl _, h⟩
    · rintro ⟨k, h1, h2⟩
      rw [Nat.le_zero.1 h1] at h2
      exact h2
  | succ n ih =>
    constructor
    · rintro ⟨x, y, rfl, h1, h2⟩
      obtain ⟨k, h3, h4⟩ := (ih y).1 h2
      rcases h1 with rfl | h1
      · exact ⟨k, by omega, h4⟩
      · exact ⟨k + 1, by omega, x, y, rfl, h1, h4⟩
    · rintro ⟨k, h1, h2⟩
      cases k with
      | zero => exact ⟨[], s, rfl, Or.inl rfl, (ih s).2 ⟨0, by omega, h2⟩⟩
      | succ k =>
        obtain ⟨x, y, rfl, h3, h4⟩ := h2
        exact ⟨x, y, rfl, Or.inr h3, (ih y).2 ⟨k, by omega, h4⟩⟩

theorem Lang.pow_congr {L K : Lang} (h : ∀ s, L s ↔ K s) (n : Nat) (s : List Lab) : Lang.pow L n s ↔ Lang.pow K n s := by
  have : L = K := funext fun s => propext (h s)
  rw [this]

/-! ## Elements -/

theorem empty_at : At {} (fun q u => q = 0 ∧ u = []) 0 none where
  ok := {
    pos := Nat.lt_succ_self 0
    wf := fun e he => by cases he
    zero := ⟨rfl, rfl⟩
    sound := fun e he => by cases he
    complete := fun q hq u hu => by rw [hu.1, hu.2]; exact .nil _ }
  lt := Nat.lt_succ_self 0
  out := fun e he => by cases he
  loop := fun a ha => by cases ha

/-- What is compiled for a `repeat`. -/
theorem single_of_ext {y : Trans × Nat} {den' : Nat → List Lab → Prop} {L : Lang} (h : Ext {} (fun q u => q = 0 ∧ u = []) 0 y den' none L) :
    Single (setFinal y) y.2 ∧ ∀ s, (setFinal y).Accepts s ↔ L s := by
  have hf : y.1.finals = [] := h.finals
  refine ⟨⟨⟨h.ok.pos, h.ok.wf, ?_⟩, by simp [setFinal, hf], h.out⟩, ?_⟩
  · intro f hx
    simp only [setFinal, hf, List.mem_singleton] at hx
    rw [hx]; exact h.lt
  · intro s
    have h1 : (setFinal y).Accepts s ↔ Path y.1.edges y.1.initial s y.2 := by
      unfold Trans.Accepts
      simp [setFinal, hf]
    rw [h1, ← h.ok.iff h.lt s, h.exit]
    constructor
    · rintro ⟨v, r, ⟨_, rfl⟩, h2, rfl⟩; exact h2
    · intro h2; exact ⟨[], s, ⟨rfl, rfl⟩, h2, rfl⟩

/-- The state of the loop of `compile_or`: `A` is what the elements so far add. -/
structure OrInv (t : Trans) (den : Nat → List Lab → Prop) (p : Nat) (x : Trans × Nat) (den' : Nat → List Lab → Prop) (A : Lang) : Prop where
  ok : Den x.1.initial x.1.edges x.1.next den'
  old : ∀ q, q < t.next → den' q = den q
  lt : x.2 < x.1.next
  grow : t.next ≤ x.1.next
  edges : ∀ e ∈ x.1.edges, e ∈ t.edges ∨ e.1 = p ∨ t.next ≤ e.1
  finals : x.1.finals = t.finals
  initial : x.1.initial = t.initial
  first : x.2 = p → ∀ s, ¬ A s
  later : x.2 ≠ p → t.next ≤ x.2 ∧ Out x.1 x.2 none ∧ ∀ u, den' x.2 u ↔ ∃ v s, den p v ∧ A s ∧ u = v ++ s

mutual
theorem compileNode_ext (upper : Nat → Bool) : (c : Node) → {t : Trans} → {den : Nat → List Lab → Prop} → {p : Nat} → At t den p none →
    (y : Trans × Nat) → compileNode upper c (t, p) = some y → ∃ den', Ext t den p y den' none (c.lang upper)
  | .word m, t, den, p, h, y, hy => by
    rw [compileNode] at hy
    obtain ⟨_, k, hk, rfl⟩ := compileMatch_some hy
    obtain ⟨den', h1⟩ := h.doSteps (m.steps upper ++ [.one .bound, .one (.mark k)])
    have hl : (m.steps upper ++ [StepT.one .bound, StepT.one (.mark k)]).foldl afterStep none = none := by
      rw [List.foldl_append]
      generalize (m.steps upper).foldl afterStep none = l
      simp only [List.foldl_cons, List.foldl_nil, afterStep]
      by_cases e : l = some .bound
      · simp [e]
      · simp [e]
    rw [hl] at h1
    refine ⟨den', h1.congr ?_⟩
    intro s
    rw [Node.lang]
    constructor
    · intro hs; exact ⟨k, hk, hs⟩
    · rintro ⟨k', hk', hs⟩
      rw [hk] at hk'
      injection hk' with e
      rw [e]; exact hs
  | .start, t, den, p, h, y, hy => by
    rw [compileNode] at hy
    injection hy with hy
    subst hy
    obtain ⟨den', h1⟩ := h.single (.inp nullBoundary) (by simp)
    exact ⟨den', by rw [Node.lang]; exact h1⟩
  | .or cs, t, den, p, h, y, hy => by
    rw [compileNode] at hy
    dsimp only at hy
    obtain ⟨den', h1, h5⟩ := compileOr_ext upper cs h (x := (t, p)) (den' := den) (A := fun _ => False)
      { ok := h.ok, old := fun _ _ => rfl, lt := h.lt, grow := Nat.le_refl _, edges := fun e he => Or.inl he, finals := rfl, initial := rfl,
        first := fun _ _ h => h, later := fun hx => absurd rfl hx } y hy
    by_cases hne : cs = []
    · subst hne
      rw [compileOr] at hy
      injection hy with hy
      subst hy
      refine ⟨den, h.refl.congr ?_⟩
      intro s
      rw [Node.lang]
      simp [Lang.one, anyLang]
    · obtain ⟨h2, h3, h4⟩ := h1.later (h5 (Or.inr hne))
      refine ⟨den', h1.ok, h1.old, ?_, h1.lt, h1.grow, Or.inr h2, h3, fun a ha => (by cases ha), h1.edges, h1.finals, h1.initial⟩
      intro u
      rw [h4]
      rw [Node.lang]
      simp [hne]
  | .rep lo hi cs, t, den, p, h, y, hy => by
    rw [compileNode] at hy
    split at hy
    · cases hy
    rename_i hneg
    split at hy
    · cases hy
    rename_i hle
    cases hc : compileSeq upper cs ({}, 0) with
    | none => rw [hc] at hy; cases hy
    | some c =>
      rw [hc] at hy
      simp only [Option.bind_some] at hy
      obtain ⟨denc, h1⟩ := compileSeq_ext upper cs empty_at c hc
      obtain ⟨h2, h3⟩ := single_of_ext h1
      obtain ⟨x, den1, h4, h5⟩ := times_ext h2 lo.toNat h
      obtain ⟨c', f', h6, h7, h8⟩ := optional_single h2
      obtain ⟨z, den2, h9, h10⟩ := times_ext h7 (hi - lo).toNat h5.here
      rw [h4] at hy
      simp only [Option.bind_some] at hy
      rw [h6] at hy
      simp only [Option.bind_some] at hy
      rw [h9] at hy
      injection hy with hy
      subst hy
      refine ⟨den2, (h5.trans h10).congr ?_⟩
      intro s
      rw [Node.lang]
      have e1 : ∀ s, Lang.pow c'.Accepts (hi - lo).toNat s ↔ ∃ k, k ≤ (hi - lo).toNat ∧ Lang.pow (seqLang upper cs) k s := by
        intro s
        rw [← Lang.pow_opt]
        exact Lang.pow_congr (fun s => by rw [h8, h3]) _ _
      have e2 : ∀ s, Lang.pow (setFinal c).Accepts lo.toNat s ↔ Lang.pow (seqLang upper cs) lo.toNat s := fun s => Lang.pow_congr h3 _ _
      constructor
      · rintro ⟨a, b, rfl, ha, hb⟩
        obtain ⟨k, hk, hb⟩ := (e1 b).1 hb
        refine ⟨lo.toNat + k, by omega, by omega, (Lang.pow_add _ _ _).1 ⟨a, b, rfl, (e2 a).1 ha, hb⟩⟩
      · rintro ⟨n, hn1, hn2, hs⟩
        have en : n = lo.toNat + (n - lo.toNat) := by omega
        rw [en] at hs
        obtain ⟨a, b, rfl, ha, hb⟩ := (Lang.pow_add _ _ _).2 hs
        exact ⟨a, b, rfl, (e2 a).2 ha, (e1 b).2 ⟨_, by omega, hb⟩⟩

theorem compileSeq_ext (upper : Nat → Bool) : (cs : List Node) → {t : Trans} → {den : Nat → List Lab → Prop} → {p : Nat} → At t den p none →
    (y : Trans × Nat) → compileSeq upper cs (t, p) = some y → ∃ den', Ext t den p y den' none (seqLang upper cs)
  | [], t, den, p, h, y, hy => by
    rw [compileSeq] at hy
    injection hy with hy
    subst hy
    exact ⟨den, by rw [seqLang]; exact h.refl⟩
  | c :: cs, t, den, p, h, y, hy => by
    rw [compileSeq] at hy
    cases hc : compileNode upper c (t, p) with
    | none => rw [hc] at hy; cases hy
    | some x =>
      rw [hc] at hy
      simp only [Option.bind_some] at hy
      obtain ⟨den1, h1⟩ := compileNode_ext upper c h x hc
      obtain ⟨den2, h2⟩ := compileSeq_ext upper cs h1.here y hy
      exact ⟨den2, by rw [seqLang]; exact h1.trans h2⟩

theorem compileOr_ext (upper : Nat → Bool) : (cs : List Node) → {t : Trans} → {den : Nat → List Lab → Prop} → {p : Nat} → At t den p none →
    {x : Trans × Nat} → {den' : Nat → List Lab → Prop} → {A : Lang} → OrInv t den p x den' A →
    (y : Trans × Nat) → compileOr upper p cs x = some y → ∃ den'', OrInv t den p y den'' (fun s => A s ∨ anyLang upper cs s) ∧ (x.2 ≠ p ∨ cs ≠ [] → y.2 ≠ p)
  | [], t, den, p, h, x, den', A, hx, y, hy => by
    rw [compileOr] at hy
    injection hy with hy
    subst hy
    have : (fun s => A s ∨ anyLang upper [] s) = A := by funext s; simp [anyLang]
    exact ⟨den', by rw [this]; exact hx, by simp⟩
  | c :: cs, t, den, p, h, x, den', A, hx, y, hy => by
    rw [compileOr] at hy
    have hgrow := hx.grow
    have hpt := h.lt
    obtain ⟨den1, h1⟩ := At.insertNew (p := p) hx.ok (by omega)
    cases hc : compileNode upper c (insertNew (x.1, p)) with
    | none => rw [hc] at hy; cases hy
    | some z =>
      rw [hc] at hy
      simp only [Option.bind_some] at hy
      obtain ⟨den2, h2⟩ := compileNode_ext upper c h1.here z hc
      have h3 := h1.trans h2
      have hp' : den' p = den p := hx.old p hpt
      have hzx : x.1.next ≤ z.2 := by
        have : (insertNew (x.1, p)).2 = x.1.next := rfl
        have h4 : (insertNew (x.1, p)).1.next = x.1.next + 1 := rfl
        rcases h2.fresh with f | f <;> omega
      have hexit : ∀ u, den2 z.2 u ↔ ∃ v s, den p v ∧ c.lang upper s ∧ u = v ++ s := by
        intro u
        rw [h3.exit, hp']
        constructor
        · rintro ⟨v, s, e1, ⟨a, b, rfl, e2, e3⟩, rfl⟩
          rw [show a = [] from e2]
          exact ⟨v, b, e1, e3, rfl⟩
        · rintro ⟨v, s, e1, e2, rfl⟩
          exact ⟨v, s, e1, ⟨[], s, rfl, rfl, e2⟩, rfl⟩
      have hedges : ∀ e ∈ z.1.edges, e ∈ t.edges ∨ e.1 = p ∨ t.next ≤ e.1 := by
        intro e he
        rcases h3.edges e he with e1 | e1 | e1
        · exact hx.edges e e1
        · exact Or.inr (Or.inl e1)
        · exact Or.inr (Or.inr (by omega))
      have hA : ∀ B : Lang, (fun s => (B s ∨ c.lang upper s) ∨ anyLang upper cs s) = fun s => B s ∨ anyLang upper (c :: cs) s := by
        intro B; funext s; simp [anyLang, or_assoc]
      by_cases e : x.2 = p
      · rw [if_pos e] at hy
        have e2 := hx.first e
        have hinv : OrInv t den p z den2 (fun s => A s ∨ c.lang upper s) := {
          ok := h3.ok
          old := fun q hq => by rw [h3.old q (by omega), hx.old q hq]
          lt := h3.lt
          grow := Nat.le_trans hgrow h3.grow
          edges := hedges
          finals := h3.finals.trans hx.finals
          initial := h3.initial.trans hx.initial
          first := fun hzp => by omega
          later := fun _ => ⟨by omega, h3.out, fun u => by
            rw [hexit]
            constructor
            · rintro ⟨v, s, f1, f2, f3⟩; exact ⟨v, s, f1, Or.inr f2, f3⟩
            · rintro ⟨v, s, f1, f2 | f2, f3⟩
              · exact absurd f2 (e2 s)
              · exact ⟨v, s, f1, f2, f3⟩⟩ }
        obtain ⟨den3, h4, h5⟩ := compileOr_ext upper cs h hinv y hy
        rw [hA] at h4
        exact ⟨den3, h4, fun _ => h5 (Or.inl (by omega))⟩
      · rw [if_neg e] at hy
        obtain ⟨e1, e2, e3⟩ := hx.later e
        have hxl := hx.lt
        have hfreex : ∀ e ∈ z.1.edges, e.1 ≠ x.2 := by
          intro e' he hx'
          rcases h3.edges e' he with f | f | f
          · exact free e2 e' f hx'
          · exact e (hx'.symm.trans f)
          · omega
        have hno : (z.2, none, x.2) ∉ z.1.edges := fun hmem => by
          exact free h3.out _ hmem rfl
        have hlink : link z.1 z.2 x.2 none = { z.1 with edges := z.1.edges ++ [(z.2, none, x.2)] } := by
          unfold link; rw [if_neg hno]
        rw [hlink] at hy
        have hd := h3.ok.growEdge z.2 x.2 none h3.lt (Nat.lt_of_lt_of_le hxl h3.grow) (by omega) hfreex
        have hinv : OrInv t den p ({ z.1 with edges := z.1.edges ++ [(z.2, none, x.2)] }, x.2) _ (fun s => A s ∨ c.lang upper s) := {
          ok := hd
          old := fun q hq => by rw [setDen_ne _ _ _ (by omega), h3.old q (by omega), hx.old q hq]
          lt := Nat.lt_of_lt_of_le hxl h3.grow
          grow := Nat.le_trans hgrow h3.grow
          edges := fun e' he => by
            rcases List.mem_append.1 he with he | he
            · exact hedges e' he
            · rw [List.mem_singleton.1 he]; exact Or.inr (Or.inr (by dsimp only; omega))
          finals := h3.finals.trans hx.finals
          initial := h3.initial.trans hx.initial
          first := fun hzp => absurd hzp e
          later := fun _ => ⟨e1, (by
            intro e' he hx'
            rcases List.mem_append.1 he with he | he
            · exact absurd hx' (hfreex e' he)
            · rw [List.mem_singleton.1 he] at hx'; dsimp only at hx'; omega), fun u => by
            dsimp only
            rw [setDen_eq, h3.old x.2 hxl, e3]
            constructor
            · rintro (⟨v, s, f1, f2, f3⟩ | ⟨w, f1, f2⟩)
              · exact ⟨v, s, f1, Or.inl f2, f3⟩
              · obtain ⟨v, s, g1, g2, rfl⟩ := (hexit w).1 f1
                exact ⟨v, s, g1, Or.inr g2, by simpa using f2⟩
            · rintro ⟨v, s, f1, f2 | f2, rfl⟩
              · exact Or.inl ⟨v, s, f1, f2, rfl⟩
              · exact Or.inr ⟨v ++ s, (hexit _).2 ⟨v, s, f1, f2, rfl⟩, by simp⟩⟩ }
        obtain ⟨den3, h4, h5⟩ := compileOr_ext upper cs h hinv y hy
        rw [hA] at h4
        exact ⟨den3, h4, fun _ => h5 (Or.inl e)⟩

end

end Verif.Crx
