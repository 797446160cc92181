import Verif.Tsx.Spec
namespace Verif.Tsx
open Verif.Tagger (Tags sinsert)

/-! ### Loops -/

/-- The body of a loop reads at least one node. -/
def Dec (body : S → Outcome (S × Bool)) : Prop := ∀ s s' b, body s = .ok (s', b) → s'.rest.length < s.rest.length

/-- A procedure does not read backwards. -/
def NInc (proc : S → Outcome S) : Prop := ∀ s s', proc s = .ok s' → s'.rest.length ≤ s.rest.length

def Ends {α : Type} (o : Outcome α) : Prop := o = .fail ∨ ∃ a, o = .ok a

theorem loopN_fuel {body : S → Outcome (S × Bool)} (hd : Dec body) (cond : S → Bool) :
    ∀ n m s, s.rest.length < n → s.rest.length < m → loopN n cond body s = loopN m cond body s := by
  intro n
  induction n with
  | zero => intro m s h; omega
  | succ n ih =>
    intro m s hn hm
    match m, hm with
    | m + 1, hm =>
      simp only [loopN]
      split
      · match hb : body s with
        | .ok (s', true) => rfl
        | .ok (s', false) =>
          have := hd s s' false hb
          exact ih m s' (by omega) (by omega)
        | .fail => rfl
        | .diverge => rfl
        | .ub => rfl
      · rfl

theorem loop_step {cond : S → Bool} {body : S → Outcome (S × Bool)} (hd : Dec body) {s s' : S} (hc : cond s = true) (hb : body s = .ok (s', false)) :
    loop cond body s = loop cond body s' := by
  have h1 := hd _ _ _ hb
  show loopN (s.rest.length + 1 + 1) cond body s = _
  rw [loopN]
  simp only [hc, hb, if_true]
  exact loopN_fuel hd cond (s.rest.length + 1) (s'.rest.length + 2) s' (by omega) (by omega)

theorem loop_break {cond : S → Bool} {body : S → Outcome (S × Bool)} {s s' : S} (hc : cond s = true) (hb : body s = .ok (s', true)) :
    loop cond body s = .ok s' := by
  show loopN (s.rest.length + 1 + 1) cond body s = _
  simp only [loopN, hc, hb, if_true]

theorem loop_exit {cond : S → Bool} {body : S → Outcome (S × Bool)} {s : S} (hc : cond s = false) : loop cond body s = .ok s := by
  show loopN (s.rest.length + 1 + 1) cond body s = _
  simp only [loopN, hc, Bool.false_eq_true, if_false]

theorem loop_fail {cond : S → Bool} {body : S → Outcome (S × Bool)} {s : S} (hc : cond s = true) (hb : body s = .fail) :
    loop cond body s = .fail := by
  show loopN (s.rest.length + 1 + 1) cond body s = _
  simp only [loopN, hc, hb, if_true]

/-- What every round of a loop keeps, the loop keeps. -/
theorem loop_inv {cond : S → Bool} {body : S → Outcome (S × Bool)} (I : S → Prop) (hI : ∀ s s' b, I s → body s = .ok (s', b) → I s') {s s' : S} (h : I s)
    (hl : loop cond body s = .ok s') : I s' := by
  unfold loop at hl
  generalize s.rest.length + 2 = n at hl
  induction n generalizing s with
  | zero => simp [loopN] at hl
  | succ n ih =>
    simp only [loopN] at hl
    split at hl
    · match hb : body s with
      | .ok (t, true) => simp only [hb, Outcome.ok.injEq] at hl; subst hl; exact hI _ _ _ h hb
      | .ok (t, false) => simp only [hb] at hl; exact ih (hI _ _ _ h hb) hl
      | .fail => simp [hb] at hl
      | .diverge => simp [hb] at hl
      | .ub => simp [hb] at hl
    · cases hl; exact h

theorem loop_ends {cond : S → Bool} {body : S → Outcome (S × Bool)} (hd : Dec body) (he : ∀ s, Ends (body s)) (s : S) : Ends (loop cond body s) := by
  unfold loop
  have : ∀ n s, s.rest.length < n → Ends (loopN n cond body s) := by
    intro n
    induction n with
    | zero => intro s h; omega
    | succ n ih =>
      intro s hn
      simp only [loopN]
      split
      · rcases he s with hb | ⟨⟨s', b⟩, hb⟩
        · rw [hb]; exact .inl rfl
        · rw [hb]
          cases b with
          | true => exact .inr ⟨_, rfl⟩
          | false =>
            have := hd s s' false hb
            exact ih s' (by omega)
      · exact .inr ⟨_, rfl⟩
  exact this _ s (by omega)

theorem loop_ninc {cond : S → Bool} {body : S → Outcome (S × Bool)} (hd : Dec body) : NInc (loop cond body) := by
  intro s s' h
  exact loop_inv (fun t => t.rest.length ≤ s.rest.length) (fun t t' b ht hb => Nat.le_trans (Nat.le_of_lt (hd _ _ _ hb)) ht) (Nat.le_refl _) h

/-! ### The steps -/

theorem step_cons (c n : Node) (r : List Node) (d : Data) : step ⟨c, n :: r, d⟩ = .ok ⟨n, r, d⟩ := rfl

theorem step_dec {s s' : S} (h : step s = .ok s') : s'.rest.length < s.rest.length := by
  unfold step at h
  match hr : s.rest with
  | [] => simp [hr] at h
  | n :: r => simp only [hr, Outcome.ok.injEq] at h; subst h; simp

theorem step_ends (s : S) : Ends (step s) := by
  unfold step
  match s.rest with
  | [] => exact .inl rfl
  | n :: r => exact .inr ⟨_, rfl⟩

theorem step_data {s s' : S} (h : step s = .ok s') : s'.data = s.data := by
  unfold step at h
  match hr : s.rest with
  | [] => simp [hr] at h
  | n :: r => simp only [hr, Outcome.ok.injEq] at h; subst h; rfl

theorem Ends.bind {α β : Type} {o : Outcome α} {f : α → Outcome β} (h : Ends o) (hf : ∀ a, o = .ok a → Ends (f a)) : Ends (o >>= f) := by
  rcases h with h | ⟨a, h⟩
  · subst h; exact .inl rfl
  · subst h; exact hf a rfl

theorem Ends.ok {α : Type} (a : α) : Ends (Outcome.ok a) := .inr ⟨a, rfl⟩

theorem Ends.map {α β : Type} {o : Outcome α} {f : α → β} (h : Ends o) : Ends (o.map f) := by
  rcases h with h | ⟨a, h⟩
  · subst h; exact .inl rfl
  · subst h; exact .inr ⟨_, rfl⟩

/-- A body that begins with `step` and then does not read backwards. -/
theorem dec_of_step {f : S → Outcome (S × Bool)} (h : ∀ s s' b, f s = .ok (s', b) → s'.rest.length ≤ s.rest.length) : Dec (fun s => step s >>= f) := by
  intro s s' b hb
  match hs : step s with
  | .ok t =>
    simp only [hs, Outcome.bind_ok] at hb
    exact Nat.lt_of_le_of_lt (h _ _ _ hb) (step_dec hs)
  | .fail => simp [hs] at hb
  | .diverge => simp [hs] at hb
  | .ub => simp [hs] at hb

theorem ends_of_step {f : S → Outcome (S × Bool)} (h : ∀ s, Ends (f s)) (s : S) : Ends (step s >>= f) := (step_ends s).bind (fun a _ => h a)

theorem map_false {o : Outcome S} {s' : S} {b : Bool} (h : o.map (·, false) = .ok (s', b)) : o = .ok s' ∧ b = false := by
  cases o <;> simp_all [Outcome.map]

theorem skipText_dec : Dec (fun s => (step s).map (fun s' => (s', false))) := by
  intro s s' b h
  exact step_dec (map_false h).1

theorem skipText_ninc : NInc skipText := loop_ninc skipText_dec

theorem skipText_ends (s : S) : Ends (skipText s) := loop_ends skipText_dec (fun s => (step_ends s).map) s

theorem newDefTag_ends (d : Data) (t : Text) : Ends (newDefTag d t) := by
  unfold newDefTag; split
  · exact .inl rfl
  · exact .inr ⟨_, rfl⟩

theorem defTag_ends (s : S) : Ends (defTag s) := by
  unfold defTag
  refine (newDefTag_ends _ _).bind (fun d _ => ?_)
  split
  · exact .ok _
  · exact .ok _

theorem bind_eq_ok {α β : Type} {o : Outcome α} {f : α → Outcome β} {b : β} (h : (o >>= f) = .ok b) : ∃ a, o = .ok a ∧ f a = .ok b := by
  cases o with
  | ok a => exact ⟨a, rfl, h⟩
  | fail => cases h
  | diverge => cases h
  | ub => cases h

theorem defTag_rest {s s' : S} (h : defTag s = .ok s') : s'.rest = s.rest := by
  unfold defTag at h
  obtain ⟨d, _, h⟩ := bind_eq_ok h
  split at h <;> (cases h; rfl)

theorem addItem_rest (n : Text) (s : S) : (addItem n s).rest = s.rest := rfl
theorem addLabel_rest (n : Text) (s : S) : (addLabel n s).rest = s.rest := rfl

macro "body_dec" h:ident : tactic =>
  `(tactic| (repeat' split at $h:ident) <;> first
    | (cases $h:ident; exact Nat.le_refl _)
    | cases $h:ident)

macro "body_ends" : tactic => `(tactic| (repeat' split) <;> first | exact Ends.ok _ | exact .inl rfl | skip)

theorem defLabelBody_dec (n : Text) : Dec (defLabelBody n) := dec_of_step (fun s s' b h => by body_dec h)
theorem defLabelBody_ends (n : Text) (s : S) : Ends (defLabelBody n s) := ends_of_step (fun s => by body_ends) s

theorem procDefLabel_ninc : NInc procDefLabel := by
  intro s s' h
  obtain ⟨t, h1, h2⟩ := bind_eq_ok h
  have := loop_ninc (defLabelBody_dec _) _ _ h2
  rw [defTag_rest h1] at this; exact this

theorem procDefLabel_ends (s : S) : Ends (procDefLabel s) := (defTag_ends s).bind (fun t _ => loop_ends (defLabelBody_dec _) (defLabelBody_ends _) t)

theorem seqBody_dec (n : Text) : Dec (seqBody n) := dec_of_step (fun s s' b h => by body_dec h)
theorem seqBody_ends (n : Text) (s : S) : Ends (seqBody n s) := ends_of_step (fun s => by body_ends) s

theorem defMultBody_dec (n : Text) : Dec (defMultBody n) := dec_of_step (fun s s' b h => by
  split at h
  · split at h
    · cases h; exact Nat.le_refl _
    · obtain ⟨t, h1, h2⟩ := bind_eq_ok h
      have h3 := loop_ninc (seqBody_dec n) _ _ h1
      cases h2
      exact h3
  · body_dec h)

theorem defMultBody_ends (n : Text) (s : S) : Ends (defMultBody n s) := ends_of_step (fun s => by
  split
  · split
    · exact .ok _
    · exact (loop_ends (seqBody_dec n) (seqBody_ends n) _).bind (fun _ _ => .ok _)
  · body_ends) s

theorem procDefMult_ninc : NInc procDefMult := by
  intro s s' h
  obtain ⟨t, h1, h2⟩ := bind_eq_ok h
  have := loop_ninc (defMultBody_dec _) _ _ h2
  rw [defTag_rest h1] at this; exact this

theorem procDefMult_ends (s : S) : Ends (procDefMult s) := (defTag_ends s).bind (fun t _ => loop_ends (defMultBody_dec _) (defMultBody_ends _) t)

theorem tagsetHeadBody_dec : Dec tagsetHeadBody := dec_of_step (fun s s' b h => by body_dec h)
theorem tagsetHeadBody_ends (s : S) : Ends (tagsetHeadBody s) := ends_of_step (fun s => by body_ends) s

theorem tagsetBody_dec : Dec tagsetBody := dec_of_step (fun s s' b h => by
  split at h
  · split at h
    · cases h; exact Nat.le_refl _
    · exact procDefLabel_ninc _ _ (map_false h).1
  · split at h
    · split at h
      · cases h; exact Nat.le_refl _
      · exact procDefMult_ninc _ _ (map_false h).1
    · body_dec h)

theorem tagsetBody_ends (s : S) : Ends (tagsetBody s) := ends_of_step (fun s => by
  split
  · split
    · exact .ok _
    · exact (procDefLabel_ends _).map
  · split
    · split
      · exact .ok _
      · exact (procDefMult_ends _).map
    · body_ends) s

theorem procTagset_ends (s : S) : Ends (procTagset s) :=
  (loop_ends tagsetHeadBody_dec tagsetHeadBody_ends s).bind (fun _ _ => loop_ends tagsetBody_dec tagsetBody_ends _)

theorem labelItem_ninc {s s' : S} {i : Nat} (h : labelItem s = .ok (s', i)) : s'.rest.length ≤ s.rest.length := by
  obtain ⟨t, h1, h⟩ := bind_eq_ok h
  obtain ⟨u, h2, h⟩ := bind_eq_ok h
  have a := step_dec h1
  have b := skipText_ninc _ _ h2
  split at h
  · cases h; show u.rest.length ≤ _; omega
  · cases h

theorem labelItem_ends (s : S) : Ends (labelItem s) :=
  (step_ends s).bind (fun _ _ => (skipText_ends _).bind (fun _ _ => by body_ends))

theorem procLabelSequence_ninc : NInc procLabelSequence := by
  intro s s' h
  obtain ⟨⟨t, i⟩, h1, h⟩ := bind_eq_ok h
  obtain ⟨⟨u, j⟩, h2, h⟩ := bind_eq_ok h
  have a := labelItem_ninc h1
  have b := labelItem_ninc h2
  cases h
  show u.rest.length ≤ _; omega

theorem procLabelSequence_ends (s : S) : Ends (procLabelSequence s) :=
  (labelItem_ends s).bind (fun _ _ => (labelItem_ends _).bind (fun _ _ => .ok _))

theorem forbidBody_dec : Dec forbidBody := dec_of_step (fun s s' b h => by
  split at h
  · split at h
    · cases h; exact Nat.le_refl _
    · exact procLabelSequence_ninc _ _ (map_false h).1
  · body_dec h)

theorem forbidBody_ends (s : S) : Ends (forbidBody s) := ends_of_step (fun s => by
  split
  · split
    · exact .ok _
    · exact (procLabelSequence_ends _).map
  · body_ends) s

theorem preferBody_dec : Dec preferBody := dec_of_step (fun s s' b h => by body_dec h)
theorem preferBody_ends (s : S) : Ends (preferBody s) := ends_of_step (fun s => by body_ends) s
theorem discardBody_dec : Dec discardBody := dec_of_step (fun s s' b h => by body_dec h)
theorem discardBody_ends (s : S) : Ends (discardBody s) := ends_of_step (fun s => by body_ends) s

/-! ### The loop of `enforce-rules` -/

/-- What one node does to the rule under construction and the data; `none`: the loop is left. -/
def enforceNode (aux : Nat × List Nat) (s : S) : Outcome (Option (Nat × List Nat) × S) :=
  if s.cur.name = t!"enforce-after" then
    if s.cur.isEnd then .ok (some (aux.1, []), { s with data := { s.data with enforce := s.data.enforce ++ [aux] } })
    else
      let r := tagRef s.data (s.cur.attrib t!"label")
      .ok (some (r.2, aux.2), { s with data := r.1 })
  else if s.cur.name = t!"label-set" then .ok (some aux, s)
  else if s.cur.name = t!"label-item" then
    if s.cur.isEnd then .ok (some aux, s)
    else
      let r := tagRef s.data (s.cur.attrib t!"label")
      .ok (some (aux.1, aux.2 ++ [r.2]), { s with data := r.1 })
  else if isText s.cur then .ok (some aux, s)
  else if s.cur.name = t!"enforce-rules" then
    if s.cur.isEnd then .ok (none, s) else .fail
  else .fail

theorem enforceN_succ (fuel : Nat) (aux : Nat × List Nat) (s : S) :
    enforceN (fuel + 1) aux s = if untilEnd t!"enforce-rules" s then
      match step s with
      | .ok t =>
        match enforceNode aux t with
        | .ok (some aux', u) => enforceN fuel aux' u
        | .ok (none, u) => .ok u
        | .fail => .fail
        | .diverge => .diverge
        | .ub => .ub
      | .fail => .fail
      | .diverge => .diverge
      | .ub => .ub
    else .ok s := by
  rw [enforceN]
  split
  · rcases step_ends s with h | ⟨t, h⟩
    · rw [h]
    · rw [h]
      simp only [enforceNode]
      repeat' split
      all_goals simp_all
  · rfl

theorem enforceNode_rest {aux : Nat × List Nat} {s u : S} {o : Option (Nat × List Nat)} (h : enforceNode aux s = .ok (o, u)) : u.rest = s.rest := by
  unfold enforceNode at h
  repeat' split at h
  all_goals first
    | (cases h; rfl)
    | cases h

theorem enforceNode_ends (aux : Nat × List Nat) (s : S) : Ends (enforceNode aux s) := by
  unfold enforceNode; body_ends

theorem enforceN_ends : ∀ n aux s, s.rest.length < n → Ends (enforceN n aux s) := by
  intro n
  induction n with
  | zero => intro aux s h; omega
  | succ n ih =>
    intro aux s hn
    rw [enforceN_succ]
    split
    · rcases step_ends s with h | ⟨t, h⟩
      · rw [h]; exact .inl rfl
      · rw [h]
        dsimp only
        have hd := step_dec h
        rcases enforceNode_ends aux t with h2 | ⟨⟨o, u⟩, h2⟩
        · rw [h2]; exact .inl rfl
        · rw [h2]
          have := enforceNode_rest h2
          cases o with
          | none => exact .ok _
          | some a => exact ih a u (by rw [this]; omega)
    · exact .ok _

theorem enforceN_fuel : ∀ n m aux s, s.rest.length < n → s.rest.length < m → enforceN n aux s = enforceN m aux s := by
  intro n
  induction n with
  | zero => intro m aux s h; omega
  | succ n ih =>
    intro m aux s hn hm
    match m, hm with
    | m + 1, hm =>
      rw [enforceN_succ, enforceN_succ]
      split
      · rcases step_ends s with h | ⟨t, h⟩
        · rw [h]
        · rw [h]
          dsimp only
          have hd := step_dec h
          rcases enforceNode_ends aux t with h2 | ⟨⟨o, u⟩, h2⟩
          · rw [h2]
          · rw [h2]
            have := enforceNode_rest h2
            cases o with
            | none => rfl
            | some a => exact ih m a u (by rw [this]; omega) (by rw [this]; omega)
      · rfl

/-- The loop of `procEnforce` from the rule under construction `aux`. -/
def enforceFrom (aux : Nat × List Nat) (s : S) : Outcome S := enforceN (s.rest.length + 2) aux s

theorem enforce_step {aux aux' : Nat × List Nat} {s t u : S} (hc : untilEnd t!"enforce-rules" s = true) (hs : step s = .ok t)
    (hn : enforceNode aux t = .ok (some aux', u)) : enforceFrom aux s = enforceFrom aux' u := by
  have h1 := step_dec hs
  have h2 := enforceNode_rest hn
  show enforceN (s.rest.length + 1 + 1) aux s = _
  rw [enforceN_succ, if_pos hc, hs]
  simp only [hn]
  exact enforceN_fuel _ _ _ _ (by rw [h2]; omega) (by omega)

theorem enforce_break {aux : Nat × List Nat} {s t u : S} (hc : untilEnd t!"enforce-rules" s = true) (hs : step s = .ok t)
    (hn : enforceNode aux t = .ok (none, u)) : enforceFrom aux s = .ok u := by
  show enforceN (s.rest.length + 1 + 1) aux s = _
  rw [enforceN_succ, if_pos hc, hs]
  simp only [hn]

/-- What every round keeps, with the rule under construction. -/
theorem enforce_inv (I : Nat × List Nat → S → Prop) (hI : ∀ aux s t aux' u, I aux s → step s = .ok t → enforceNode aux t = .ok (some aux', u) → I aux' u)
    (J : S → Prop) (hJ : ∀ aux s t u, I aux s → step s = .ok t → enforceNode aux t = .ok (none, u) → J u) (hJ' : ∀ aux s, I aux s → J s)
    {aux : Nat × List Nat} {s s' : S} (h : I aux s) (hl : enforceFrom aux s = .ok s') : J s' := by
  unfold enforceFrom at hl
  generalize s.rest.length + 2 = n at hl
  induction n generalizing s aux with
  | zero => simp [enforceN] at hl
  | succ n ih =>
    rw [enforceN_succ] at hl
    split at hl
    · rcases step_ends s with h1 | ⟨t, h1⟩
      · simp [h1] at hl
      · simp only [h1] at hl
        rcases enforceNode_ends aux t with h2 | ⟨⟨o, u⟩, h2⟩
        · simp [h2] at hl
        · cases o with
          | none => simp only [h2, Outcome.ok.injEq] at hl; subst hl; exact hJ _ _ _ _ h h1 h2
          | some a => simp only [h2] at hl; exact ih (hI _ _ _ _ _ h h1 h2) hl
    · cases hl; exact hJ' _ _ h

theorem procEnforce_ends (s : S) : Ends (procEnforce s) := enforceN_ends _ _ _ (by omega)

theorem nextTag_ends (s : S) : Ends (nextTag s) := (step_ends s).bind (fun _ _ => skipText_ends _)

theorem optSection_ends {x : Text} {p : S → Outcome S} (h : ∀ s, Ends (p s)) (s : S) : Ends (optSection x p s) := by
  unfold optSection; split
  · exact (h s).bind (fun _ _ => nextTag_ends _)
  · exact .ok _

theorem newTagIndex_ends (d : Data) (t : Text) : Ends (newTagIndex d t) := by
  unfold newTagIndex; split
  · exact .inl rfl
  · exact .ok _

theorem clearTagIndex_ends (d : Data) : Ends (clearTagIndex d) :=
  (newTagIndex_ends _ _).bind fun _ _ => (newTagIndex_ends _ _).bind fun _ _ => (newTagIndex_ends _ _).bind fun _ _ =>
  (newTagIndex_ends _ _).bind fun _ _ => (newTagIndex_ends _ _).bind fun _ _ => (newTagIndex_ends _ _).bind fun _ _ => newTagIndex_ends _ _

end Verif.Tsx
