import Verif.Dom.Base
/-! # The interpreter on trees does what the interpreter on abstract rules does, if the virtual functions do -/
namespace Verif.Dom
open Verif.Transfer

/-- The same ending, and with normal endings related results. -/
def Rel {α β : Type} (r : α → β → Prop) : Outcome α → Outcome β → Prop
  | .ok a, .ok b => r a b
  | .fail, .fail => True
  | .ub, .ub => True
  | .diverge, .diverge => True
  | _, _ => False

theorem Rel.bind {α β α' β' : Type} {r : α → β → Prop} {r' : α' → β' → Prop} {x : Outcome α} {y : Outcome β}
    (h : Rel r x y) {f : α → Outcome α'} {g : β → Outcome β'} (hf : ∀ a b, r a b → Rel r' (f a) (g b)) :
    Rel r' (x.bind f) (y.bind g) := by
  cases x <;> cases y <;> simp_all [Rel, Outcome.bind]

theorem Rel.map {α β α' β' : Type} {r : α → β → Prop} {r' : α' → β' → Prop} {x : Outcome α} {y : Outcome β}
    (h : Rel r x y) {f : α → α'} {g : β → β'} (hf : ∀ a b, r a b → r' (f a) (g b)) :
    Rel r' (x.map f) (y.map g) := by
  cases x <;> cases y <;> simp_all [Rel, Outcome.map]

theorem Rel.map_left {α β α' : Type} {r : α → β → Prop} {r' : α' → β → Prop} {x : Outcome α} {y : Outcome β}
    (h : Rel r x y) {f : α → α'} (hf : ∀ a b, r a b → r' (f a) b) : Rel r' (x.map f) y := by
  cases x <;> cases y <;> simp_all [Rel, Outcome.map]

theorem Rel.refl {α : Type} {r : α → α → Prop} (hr : ∀ a, r a a) (x : Outcome α) : Rel r x x := by
  cases x <;> simp [Rel, hr]

/-- A value and a state: the value is the same. -/
def PR {α S' S : Type} (R : S' → S → Prop) (p : α × S') (q : α × S) : Prop := p.1 = q.1 ∧ R p.2 q.2

/-- All elements of the tree are in the document, with their role. -/
def Placed (D : List (XNode × Role)) (r : Role) (n : XNode) : Prop := ∀ p ∈ nodes r n, p ∈ D

def PlacedAll (D : List (XNode × Role)) (r : Role) (ks : List XNode) : Prop := ∀ p ∈ nodesAll r ks, p ∈ D

variable {D : List (XNode × Role)}

theorem PlacedAll.head {r : Role} {k : XNode} {ks : List XNode} (h : PlacedAll D r (k :: ks)) : Placed D r k :=
  fun p hp => h p (by simp only [nodesAll]; exact List.mem_append_left _ hp)

theorem PlacedAll.tail {r : Role} {k : XNode} {ks : List XNode} (h : PlacedAll D r (k :: ks)) :
    PlacedAll D (if k.isText then r else .value) ks :=
  fun p hp => h p (by simp only [nodesAll]; exact List.mem_append_right _ hp)

theorem PlacedAll.text {r : Role} {k : XNode} {ks : List XNode} (h : PlacedAll D r (k :: ks)) (hk : k.isText = true) : PlacedAll D r ks := by
  simpa [hk] using h.tail

theorem PlacedAll.rest {k : XNode} {ks : List XNode} (h : PlacedAll D .value (k :: ks)) : PlacedAll D .value ks := by
  have := h.tail
  split at this <;> exact this

theorem Placed.self {r : Role} {i : Nat} {n : Text} {as : List (Text × Text)} {ks : List XNode} (h : Placed D r (.elem i n as ks)) :
    (XNode.elem i n as ks, r) ∈ D := h _ (by simp [nodes])

theorem Placed.kids {r : Role} {i : Nat} {n : Text} {as : List (Text × Text)} {ks : List XNode} (h : Placed D r (.elem i n as ks)) :
    PlacedAll D (if IK.of n = .let then .target else .value) ks := fun p hp => h p (by simp only [nodes]; exact List.mem_cons_of_mem _ hp)

theorem Placed.kids_value {r : Role} {i : Nat} {n : Text} {as : List (Text × Text)} {ks : List XNode} (h : Placed D r (.elem i n as ks))
    (hn : IK.of n ≠ .let) : PlacedAll D .value ks := by simpa [hn] using h.kids

theorem elems_cons (k : XNode) (ks : List XNode) : elems (k :: ks) = if k.isText then elems ks else k :: elems ks := by
  cases h : k.isText <;> simp [elems, h]

/-- The first element among children that are all in the document. -/
theorem placed_first {r : Role} : ∀ {ks : List XNode} {a : XNode} {rest : List XNode}, PlacedAll D r ks → elems ks = a :: rest → Placed D r a
  | [], _, _, _, h => by simp [elems] at h
  | k :: ks, a, rest, hp, h => by
    rw [elems_cons] at h
    by_cases hk : k.isText = true
    · rw [if_pos hk] at h; exact placed_first (hp.text hk) h
    · rw [if_neg hk] at h
      cases h; exact hp.head

/-- The second one. -/
theorem placed_second {r : Role} : ∀ {ks : List XNode} {a b : XNode} {rest : List XNode}, PlacedAll D r ks → elems ks = a :: b :: rest → Placed D .value b
  | [], _, _, _, _, h => by simp [elems] at h
  | k :: ks, a, b, rest, hp, h => by
    rw [elems_cons] at h
    by_cases hk : k.isText = true
    · rw [if_pos hk] at h; exact placed_second (hp.text hk) h
    · rw [if_neg hk] at h
      obtain ⟨_, h⟩ := List.cons.inj h
      have := hp.tail
      rw [if_neg hk] at this
      exact placed_first this h

theorem CK.not_instr {n : Text} (h : CK.of n ≠ .other) : IK.of n ≠ .let := by
  intro hi
  have : n = t!"let" := by
    simp only [IK.of] at hi
    repeat' split at hi
    all_goals first | assumption | cases hi
  subst this
  exact h (by decide)

theorem EK.not_instr {n : Text} (h : EK.of n ≠ .other) : IK.of n ≠ .let := by
  intro hi
  have : n = t!"let" := by
    simp only [IK.of] at hi
    repeat' split at hi
    all_goals first | assumption | cases hi
  subst this
  exact h (by decide)

theorem two_some {ks : List XNode} {a b : XNode} (h : two ks = some (a, b)) : ∃ rest, elems ks = a :: b :: rest := by
  simp only [two] at h
  split at h
  · rename_i x y rest he
    cases h; exact ⟨rest, he⟩
  · cases h

variable {S' S : Type}

/-- The virtual functions of the tree interpreter do what those of the abstract one do, on elements of the document. -/
structure VirtSim (D : List (XNode × Role)) (R : S' → S → Prop) (xv : XVirt S') (v : Virt S) (call : Text → List Int → S → Outcome S) : Prop where
  evalString : ∀ n e, Placed D .value n → absExpr n = some e → ∀ s' s, R s' s → Rel (PR R) (xv.evalString n s') (v.evalString e s)
  processLet : ∀ n l r, Placed D .value n → IK.of n.name = .let → absSides n.kids = some (l, r) → ∀ s' s, R s' s →
    Rel R (xv.processLet n s') (v.processLet l r s)
  processModifyCase : ∀ n l r, Placed D .value n → IK.of n.name = .modifyCase → absSides n.kids = some (l, r) → ∀ s' s, R s' s →
    Rel R (xv.processModifyCase n s') (v.processModifyCase l r s)
  processAppend : ∀ n es, Placed D .value n → IK.of n.name = .append → absExprs n.kids = some es → ∀ s' s, R s' s →
    Rel R (xv.processAppend n s') (v.processAppend (getattr n.attrs t!"n") es s)
  processOut : ∀ n es, Placed D .value n → IK.of n.name = .out → absExprs n.kids = some es → ∀ s' s, R s' s →
    Rel R (xv.processOut n s') (v.processOut es s)
  processCallMacro : ∀ n m args, Placed D .value n → IK.of n.name = .callMacro → onlyAttr n.attrs t!"n" = some m → absArgs n.kids = some args →
    ∀ s' s, R s' s → Rel R (xv.processCallMacro n s') (call m args s)
  tolower : xv.tolower = v.tolower
  stoi : xv.stoi = v.stoi
  list : xv.list = v.list

variable {R : S' → S → Prop} {xv : XVirt S'} {v : Virt S} {call : Text → List Int → S → Outcome S}

theorem VirtSim.fold (V : VirtSim D R xv v call) (cl : Bool) (t : Text) : xv.fold cl t = v.fold cl t := by
  simp only [XVirt.fold, Virt.fold, V.tolower]

theorem VirtSim.pickList (V : VirtSim D R xv v call) (cl : Bool) (t : Text) : xv.pickList cl t = v.pickList cl t := by
  simp only [XVirt.pickList, Virt.pickList, V.tolower, V.list]

/-- Two expressions. -/
theorem xTwo_sim (V : VirtSim D R xv v call) {ks : List XNode} {a b : XNode} {x y : Expr} (hp : PlacedAll D .value ks)
    (h : two ks = some (a, b)) (hx : absExpr a = some x) (hy : absExpr b = some y) {s' : S'} {s : S} (hs : R s' s) :
    Rel (PR R) (xTwo xv ks s') (eval2 v x y s) := by
  obtain ⟨rest, he⟩ := two_some h
  have ha := placed_first hp he
  have hb := placed_second hp he
  simp only [xTwo, he, eval2]
  refine (V.evalString a x ha hx s' s hs).bind ?_
  rintro ⟨t, s1'⟩ ⟨t2, s1⟩ ⟨ht, hs1⟩
  simp only at ht hs1
  refine (V.evalString b y hb hy s1' s1 hs1).map ?_
  rintro ⟨u, s2'⟩ ⟨u2, s2⟩ ⟨hu, hs2⟩
  simp only at hu hs2
  subst ht hu
  exact ⟨rfl, hs2⟩

/-- An expression and a list. -/
theorem xOne_sim (V : VirtSim D R xv v call) {ks : List XNode} {a b : XNode} {x : Expr} (hp : PlacedAll D .value ks)
    (h : two ks = some (a, b)) (hx : absExpr a = some x) {s' : S'} {s : S} (hs : R s' s) :
    Rel (fun (p : (Text × Text) × S') (q : Text × S) => p.1 = (q.1, getattr b.attrs t!"n") ∧ R p.2 q.2) (xOne xv ks s') (v.evalString x s) := by
  obtain ⟨rest, he⟩ := two_some h
  have ha := placed_first hp he
  have hm := V.evalString a x ha hx s' s hs
  simp only [xOne, he]
  cases h1 : xv.evalString a s' <;> cases h2 : v.evalString x s <;> simp_all [Rel, Outcome.map, PR]

/-- A comparison of two expressions. -/
theorem cmpTwo_sim (V : VirtSim D R xv v call) {ks : List XNode} {f : Expr → Expr → Cond} {g : Text → Text → Bool} {c : Cond}
    (hc : absTwo f ks = some c) (hp : PlacedAll D .value ks)
    (hf : ∀ x y s, evalCond v (f x y) s = (eval2 v x y s).map fun p => (g p.1.1 p.1.2, p.2)) {s' : S'} {s : S} (hs : R s' s) :
    Rel (PR R) ((xTwo xv ks s').map fun p => (g p.1.1 p.1.2, p.2)) (evalCond v c s) := by
  simp only [absTwo] at hc
  obtain ⟨⟨a, b⟩, h2, hc⟩ := Option.bind_eq_some_iff.1 hc
  obtain ⟨x, hx, hc⟩ := Option.bind_eq_some_iff.1 hc
  obtain ⟨y, hy, rfl⟩ := Option.map_eq_some_iff.1 hc
  rw [hf]
  refine (xTwo_sim V hp h2 hx hy hs).map ?_
  rintro ⟨⟨t, u⟩, s1'⟩ ⟨⟨t2, u2⟩, s1⟩ ⟨ht, hs1⟩
  simp only [Prod.mk.injEq] at ht hs1
  obtain ⟨rfl, rfl⟩ := ht
  exact ⟨rfl, hs1⟩

/-- A comparison with a list. -/
theorem cmpOne_sim (V : VirtSim D R xv v call) {ks : List XNode} {f : Expr → Text → Cond} {g : Text → Text → Bool} {c : Cond}
    (hc : absOne f ks = some c) (hp : PlacedAll D .value ks)
    (hf : ∀ x l s, evalCond v (f x l) s = (v.evalString x s).map fun p => (g p.1 l, p.2)) {s' : S'} {s : S} (hs : R s' s) :
    Rel (PR R) ((xOne xv ks s').map fun p => (g p.1.1 p.1.2, p.2)) (evalCond v c s) := by
  simp only [absOne] at hc
  obtain ⟨⟨a, b⟩, h2, hc⟩ := Option.bind_eq_some_iff.1 hc
  obtain ⟨x, hx, rfl⟩ := Option.map_eq_some_iff.1 hc
  rw [hf]
  refine (xOne_sim V hp h2 hx hs).map ?_
  rintro ⟨⟨t, u⟩, s1'⟩ ⟨t2, s1⟩ ⟨ht, hs1⟩
  simp only [Prod.mk.injEq] at ht hs1
  obtain ⟨rfl, rfl⟩ := ht
  exact ⟨rfl, hs1⟩

mutual
theorem xCond_sim (V : VirtSim D R xv v call) : ∀ {n : XNode} {c : Cond}, absCond n = some c → Placed D .value n →
    ∀ {s' : S'} {s : S}, R s' s → Rel (PR R) (xCond xv n s') (evalCond v c s)
  | .text _, c, hc, _, _, _, _ => by simp [absCond] at hc
  | .elem i n as ks, c, hc, hp, s', s, hs => by
    have ha := fun cs h1 h2 => @xAnd_sim V ks cs h1 h2 s' s hs
    have ho := fun cs h1 h2 => @xOr_sim V ks cs h1 h2 s' s hs
    have hn := fun cs h1 h2 => @xNot_sim V ks cs h1 h2 s' s hs
    simp only [absCond] at hc
    simp only [xCond]
    cases hk : CK.of n with
    | other =>
      simp only [hk] at hc ⊢
      cases hc
      exact ⟨rfl, hs⟩
    | equal =>
      have hq := hp.kids_value (CK.not_instr (by simp [hk]))
      simp only [hk] at hc ⊢
      exact cmpTwo_sim V (g := fun x y => decide (xv.fold (caseless as) x = xv.fold (caseless as) y)) hc hq
        (by intro x y s; simp only [evalCond, V.fold]) hs
    | beginsWith =>
      have hq := hp.kids_value (CK.not_instr (by simp [hk]))
      simp only [hk] at hc ⊢
      exact cmpTwo_sim V (g := fun x y => beginsWith (xv.fold (caseless as) x) (xv.fold (caseless as) y)) hc hq
        (by intro x y s; simp only [evalCond, V.fold]) hs
    | endsWith =>
      have hq := hp.kids_value (CK.not_instr (by simp [hk]))
      simp only [hk] at hc ⊢
      exact cmpTwo_sim V (g := fun x y => endsWith (xv.fold (caseless as) x) (xv.fold (caseless as) y)) hc hq
        (by intro x y s; simp only [evalCond, V.fold]) hs
    | containsSubstring =>
      have hq := hp.kids_value (CK.not_instr (by simp [hk]))
      simp only [hk] at hc ⊢
      exact cmpTwo_sim V (g := fun x y => contains (xv.fold (caseless as) x) (xv.fold (caseless as) y)) hc hq
        (by intro x y s; simp only [evalCond, V.fold]) hs
    | beginsWithList =>
      have hq := hp.kids_value (CK.not_instr (by simp [hk]))
      simp only [hk] at hc ⊢
      exact cmpOne_sim V (g := fun x l => (xv.pickList (caseless as) l).any (beginsWith (xv.fold (caseless as) x))) hc hq
        (by intro x y s; simp only [evalCond, V.fold, V.pickList]) hs
    | endsWithList =>
      have hq := hp.kids_value (CK.not_instr (by simp [hk]))
      simp only [hk] at hc ⊢
      exact cmpOne_sim V (g := fun x l => (xv.pickList (caseless as) l).any (endsWith (xv.fold (caseless as) x))) hc hq
        (by intro x y s; simp only [evalCond, V.fold, V.pickList]) hs
    | «in» =>
      have hq := hp.kids_value (CK.not_instr (by simp [hk]))
      simp only [hk] at hc ⊢
      exact cmpOne_sim V (g := fun x l => decide (xv.fold (caseless as) x ∈ xv.pickList (caseless as) l)) hc hq
        (by intro x y s; simp only [evalCond, V.fold, V.pickList]) hs
    | or =>
      have hq := hp.kids_value (CK.not_instr (by simp [hk]))
      simp only [hk] at hc ⊢
      obtain ⟨cs, h, rfl⟩ := Option.map_eq_some_iff.1 hc
      simp only [evalCond]; exact ho cs h hq
    | and =>
      have hq := hp.kids_value (CK.not_instr (by simp [hk]))
      simp only [hk] at hc ⊢
      obtain ⟨cs, h, rfl⟩ := Option.map_eq_some_iff.1 hc
      simp only [evalCond]; exact ha cs h hq
    | not =>
      have hq := hp.kids_value (CK.not_instr (by simp [hk]))
      simp only [hk] at hc ⊢
      obtain ⟨cs, h, rfl⟩ := Option.map_eq_some_iff.1 hc
      simp only [evalCond]; exact hn cs h hq
theorem xAnd_sim (V : VirtSim D R xv v call) : ∀ {ks : List XNode} {cs : List Cond}, absConds ks = some cs → PlacedAll D .value ks →
    ∀ {s' : S'} {s : S}, R s' s → Rel (PR R) (xAnd xv ks s') (evalAnd v cs s)
  | [], cs, hc, _, _, _, hs => by
    simp only [absConds] at hc; cases hc
    simp only [xAnd, evalAnd]; exact ⟨rfl, hs⟩
  | k :: ks, cs, hc, hp, s', s, hs => by
    have h1 := fun c h hp => @xCond_sim V k c h hp s' s hs
    have h2 := fun cs h => @xAnd_sim V ks cs h hp.rest
    simp only [absConds] at hc
    simp only [xAnd]
    by_cases hk : k.isText = true
    · rw [if_pos hk] at hc ⊢; exact h2 cs hc hs
    · rw [if_neg hk] at hc ⊢
      obtain ⟨c, hcc, hc⟩ := Option.bind_eq_some_iff.1 hc
      obtain ⟨cs', hcs, rfl⟩ := Option.map_eq_some_iff.1 hc
      simp only [evalAnd]
      refine (h1 c hcc hp.head).bind ?_
      rintro ⟨b, s1'⟩ ⟨b2, s1⟩ ⟨hb, hs1⟩
      simp only at hb hs1
      subst hb
      cases b
      · exact ⟨rfl, hs1⟩
      · exact h2 cs' hcs hs1
theorem xOr_sim (V : VirtSim D R xv v call) : ∀ {ks : List XNode} {cs : List Cond}, absConds ks = some cs → PlacedAll D .value ks →
    ∀ {s' : S'} {s : S}, R s' s → Rel (PR R) (xOr xv ks s') (evalOr v cs s)
  | [], cs, hc, _, _, _, hs => by
    simp only [absConds] at hc; cases hc
    simp only [xOr, evalOr]; exact ⟨rfl, hs⟩
  | k :: ks, cs, hc, hp, s', s, hs => by
    have h1 := fun c h hp => @xCond_sim V k c h hp s' s hs
    have h2 := fun cs h => @xOr_sim V ks cs h hp.rest
    simp only [absConds] at hc
    simp only [xOr]
    by_cases hk : k.isText = true
    · rw [if_pos hk] at hc ⊢; exact h2 cs hc hs
    · rw [if_neg hk] at hc ⊢
      obtain ⟨c, hcc, hc⟩ := Option.bind_eq_some_iff.1 hc
      obtain ⟨cs', hcs, rfl⟩ := Option.map_eq_some_iff.1 hc
      simp only [evalOr]
      refine (h1 c hcc hp.head).bind ?_
      rintro ⟨b, s1'⟩ ⟨b2, s1⟩ ⟨hb, hs1⟩
      simp only at hb hs1
      subst hb
      cases b
      · exact h2 cs' hcs hs1
      · exact ⟨rfl, hs1⟩
theorem xNot_sim (V : VirtSim D R xv v call) : ∀ {ks : List XNode} {cs : List Cond}, absConds ks = some cs → PlacedAll D .value ks →
    ∀ {s' : S'} {s : S}, R s' s → Rel (PR R) (xNot xv ks s') (evalNot v cs s)
  | [], cs, hc, _, _, _, hs => by
    simp only [absConds] at hc; cases hc
    simp only [xNot, evalNot]; exact ⟨rfl, hs⟩
  | k :: ks, cs, hc, hp, s', s, hs => by
    have h1 := fun c h hp => @xCond_sim V k c h hp s' s hs
    have h2 := fun cs h => @xNot_sim V ks cs h hp.rest
    simp only [absConds] at hc
    simp only [xNot]
    by_cases hk : k.isText = true
    · rw [if_pos hk] at hc ⊢; exact h2 cs hc hs
    · rw [if_neg hk] at hc ⊢
      obtain ⟨c, hcc, hc⟩ := Option.bind_eq_some_iff.1 hc
      obtain ⟨cs', hcs, rfl⟩ := Option.map_eq_some_iff.1 hc
      simp only [evalNot]
      refine (h1 c hcc hp.head).map ?_
      rintro ⟨b, s1'⟩ ⟨b2, s1⟩ ⟨hb, hs1⟩
      simp only at hb hs1
      subst hb
      exact ⟨rfl, hs1⟩
end

theorem xTest_sim (V : VirtSim D R xv v call) : ∀ {ks : List XNode} {cs : List Cond}, absConds ks = some cs → PlacedAll D .value ks →
    ∀ {s' : S'} {s : S}, R s' s → Rel (PR R) (xTest xv ks s') (evalTest v cs s)
  | [], cs, hc, _, _, _, hs => by
    simp only [absConds] at hc; cases hc
    simp only [xTest, evalTest]; exact ⟨rfl, hs⟩
  | k :: ks, cs, hc, hp, s', s, hs => by
    simp only [absConds] at hc
    simp only [xTest]
    by_cases hk : k.isText = true
    · rw [if_pos hk] at hc ⊢; exact xTest_sim V hc hp.rest hs
    · rw [if_neg hk] at hc ⊢
      obtain ⟨c, hcc, hc⟩ := Option.bind_eq_some_iff.1 hc
      obtain ⟨cs', hcs, rfl⟩ := Option.map_eq_some_iff.1 hc
      simp only [evalTest]
      exact xCond_sim V hcc hp.head hs

mutual
theorem xInstr_sim (V : VirtSim D R xv v call) : ∀ {n : XNode} {i : Instr}, absInstr n = some i → Placed D .value n →
    ∀ {s' : S'} {s : S}, R s' s → Rel (PR R) (xInstr xv n s') (exec v call i s)
  | .text _, c, hc, _, _, _, _ => by simp [absInstr] at hc
  | .elem i n as ks, c, hc, hp, s', s, hs => by
    have ho := fun os h1 h2 => @xChoose_sim V ks os h1 h2 (-1) s' s hs
    have fin : ∀ {x : Outcome S'} {y : Outcome S}, Rel R x y →
        Rel (PR R) (x.map fun s' => ((-1 : Int), s')) (y.map fun s' => ((-1 : Int), s')) :=
      fun h => h.map fun a b hab => ⟨rfl, hab⟩
    simp only [absInstr] at hc
    simp only [xInstr]
    cases hk : IK.of n with
    | other => simp only [hk] at hc ⊢; cases hc; simp only [exec]; exact ⟨rfl, hs⟩
    | reject =>
      simp only [hk] at hc ⊢; cases hc
      simp only [exec]
      refine ⟨?_, hs⟩
      simp only [xReject, rejectValue, V.stoi]
    | choose =>
      simp only [hk] at hc ⊢
      obtain ⟨os, h, rfl⟩ := Option.map_eq_some_iff.1 hc
      simp only [exec]
      exact ho os h (hp.kids_value (by simp [hk]))
    | «let» =>
      simp only [hk] at hc ⊢
      obtain ⟨⟨l, r⟩, h, rfl⟩ := Option.map_eq_some_iff.1 hc
      simp only [exec]
      exact fin (V.processLet _ l r hp hk h s' s hs)
    | append =>
      simp only [hk] at hc ⊢
      obtain ⟨es, h, rfl⟩ := Option.map_eq_some_iff.1 hc
      simp only [exec]
      exact fin (V.processAppend _ es hp hk h s' s hs)
    | out =>
      simp only [hk] at hc ⊢
      obtain ⟨es, h, rfl⟩ := Option.map_eq_some_iff.1 hc
      simp only [exec]
      exact fin (V.processOut _ es hp hk h s' s hs)
    | callMacro =>
      simp only [hk] at hc ⊢
      obtain ⟨m, hm, hc⟩ := Option.bind_eq_some_iff.1 hc
      obtain ⟨args, h, rfl⟩ := Option.map_eq_some_iff.1 hc
      simp only [exec]
      exact fin (V.processCallMacro _ m args hp hk hm h s' s hs)
    | modifyCase =>
      simp only [hk] at hc ⊢
      obtain ⟨⟨l, r⟩, h, rfl⟩ := Option.map_eq_some_iff.1 hc
      simp only [exec]
      exact fin (V.processModifyCase _ l r hp hk h s' s hs)
theorem xChoose_sim (V : VirtSim D R xv v call) : ∀ {ks : List XNode} {os : List Opt}, absOpts ks = some os → PlacedAll D .value ks →
    ∀ {w : Int} {s' : S'} {s : S}, R s' s → Rel (PR R) (xChoose xv ks w s') (execChoose v call os w s)
  | [], cs, hc, _, _, _, _, hs => by
    simp only [absOpts] at hc; cases hc
    simp only [xChoose, execChoose]; exact ⟨rfl, hs⟩
  | .text t :: ks, cs, hc, hp, w, s', s, hs => by
    simp only [absOpts] at hc
    simp only [xChoose]
    exact @xChoose_sim V ks cs hc hp.rest w s' s hs
  | .elem i n as ch :: ks, cs, hc, hp, w, s', s, hs => by
    have h1 := fun l h hp => @xWhen_sim V ch l h hp false w s' s hs
    have h2 := fun l h hp => @xBlock_sim V ch l h hp w s' s hs
    have h3 := fun cs h => @xChoose_sim V ks cs h hp.rest
    simp only [absOpts] at hc
    simp only [xChoose]
    by_cases hw : n = t!"when"
    · rw [if_pos hw] at hc ⊢
      have hq := hp.head.kids_value (by subst hw; decide)
      obtain ⟨l, hl, hc⟩ := Option.bind_eq_some_iff.1 hc
      obtain ⟨os, h, rfl⟩ := Option.map_eq_some_iff.1 hc
      simp only [execChoose]
      refine (h1 l hl hq).bind ?_
      rintro ⟨p, w1, s1'⟩ ⟨p2, w2, s1⟩ ⟨hb, hs1⟩
      simp only at hb hs1
      obtain rfl : p = p2 := hb
      obtain ⟨hw12, hs1⟩ := hs1
      simp only at hw12 hs1
      subst hw12
      by_cases hcond : w1 ≠ -1 ∨ p = true
      · simp only [if_pos hcond]; exact ⟨rfl, hs1⟩
      · simp only [if_neg hcond]; exact h3 os h hs1
    · rw [if_neg hw] at hc ⊢
      by_cases ho : n = t!"otherwise"
      · rw [if_pos ho] at hc ⊢
        have hq := hp.head.kids_value (by subst ho; decide)
        obtain ⟨l, hl, hc⟩ := Option.bind_eq_some_iff.1 hc
        obtain ⟨os, h, rfl⟩ := Option.map_eq_some_iff.1 hc
        simp only [execChoose]
        refine (h2 l hl hq).bind ?_
        rintro ⟨w1, s1'⟩ ⟨w2, s1⟩ ⟨hb, hs1⟩
        simp only at hb hs1
        subst hb
        by_cases hcond : w1 ≠ -1
        · simp only [if_pos hcond]; exact ⟨rfl, hs1⟩
        · simp only [if_neg hcond]; exact h3 os h hs1
      · rw [if_neg ho] at hc ⊢
        obtain ⟨os, h, rfl⟩ := Option.map_eq_some_iff.1 hc
        simp only [execChoose]
        exact h3 os h hs
theorem xWhen_sim (V : VirtSim D R xv v call) : ∀ {ks : List XNode} {os : List WhenItem}, absItems ks = some os → PlacedAll D .value ks →
    ∀ {p : Bool} {w : Int} {s' : S'} {s : S}, R s' s → Rel (PR (PR R)) (xWhen xv ks p w s') (execWhen v call os p w s)
  | [], cs, hc, _, _, _, _, _, hs => by
    simp only [absItems] at hc; cases hc
    simp only [xWhen, execWhen]; exact ⟨rfl, rfl, hs⟩
  | k :: ks, cs, hc, hp, p, w, s', s, hs => by
    have h1 := fun l h hp => @xInstr_sim V k l h hp s' s hs
    have h3 := fun cs h => @xWhen_sim V ks cs h hp.rest
    simp only [absItems] at hc
    simp only [xWhen]
    by_cases hk : k.isText = true
    · rw [if_pos hk] at hc ⊢; exact h3 cs hc hs
    · rw [if_neg hk] at hc ⊢
      by_cases ht : k.name = t!"test"
      · rw [if_pos ht] at hc ⊢
        obtain ⟨l, hl, hc⟩ := Option.bind_eq_some_iff.1 hc
        obtain ⟨os, h, rfl⟩ := Option.map_eq_some_iff.1 hc
        have hq : PlacedAll D .value k.kids := by
          cases k with
          | text _ => simp [XNode.isText] at hk
          | elem i n as ch =>
            have ht : n = t!"test" := ht
            exact hp.head.kids_value (by subst ht; decide)
        simp only [execWhen]
        refine (xTest_sim V hl hq hs).bind ?_
        rintro ⟨b, s1'⟩ ⟨b2, s1⟩ ⟨hb, hs1⟩
        simp only at hb hs1
        subst hb
        cases b
        · exact ⟨rfl, rfl, hs1⟩
        · exact h3 os h hs1
      · rw [if_neg ht] at hc ⊢
        obtain ⟨l, hl, hc⟩ := Option.bind_eq_some_iff.1 hc
        obtain ⟨os, h, rfl⟩ := Option.map_eq_some_iff.1 hc
        simp only [execWhen]
        refine (h1 l hl hp.head).bind ?_
        rintro ⟨w1, s1'⟩ ⟨w2, s1⟩ ⟨hb, hs1⟩
        simp only at hb hs1
        subst hb
        by_cases hcond : w1 ≠ -1
        · simp only [if_pos hcond]; exact ⟨rfl, rfl, hs1⟩
        · simp only [if_neg hcond]; exact h3 os h hs1
theorem xBlock_sim (V : VirtSim D R xv v call) : ∀ {ks : List XNode} {os : List Instr}, absInstrs ks = some os → PlacedAll D .value ks →
    ∀ {w : Int} {s' : S'} {s : S}, R s' s → Rel (PR R) (xBlock xv ks w s') (execBlock v call os w s)
  | [], cs, hc, _, _, _, _, hs => by
    simp only [absInstrs] at hc; cases hc
    simp only [xBlock, execBlock]; exact ⟨rfl, hs⟩
  | k :: ks, cs, hc, hp, w, s', s, hs => by
    have h1 := fun l h hp => @xInstr_sim V k l h hp s' s hs
    have h3 := fun cs h => @xBlock_sim V ks cs h hp.rest
    simp only [absInstrs] at hc
    simp only [xBlock]
    by_cases hk : k.isText = true
    · rw [if_pos hk] at hc ⊢; exact h3 cs hc hs
    · rw [if_neg hk] at hc ⊢
      obtain ⟨l, hl, hc⟩ := Option.bind_eq_some_iff.1 hc
      obtain ⟨os, h, rfl⟩ := Option.map_eq_some_iff.1 hc
      simp only [execBlock]
      refine (h1 l hl hp.head).bind ?_
      rintro ⟨w1, s1'⟩ ⟨w2, s1⟩ ⟨hb, hs1⟩
      simp only at hb hs1
      subst hb
      by_cases hcond : w1 ≠ -1
      · simp only [if_pos hcond]; exact ⟨rfl, hs1⟩
      · simp only [if_neg hcond]; exact h3 os h hs1
end

theorem xMacro_sim (V : VirtSim D R xv v call) : ∀ {ks : List XNode} {os : List Instr}, absInstrs ks = some os → PlacedAll D .value ks →
    ∀ {s' : S'} {s : S}, R s' s → Rel R (xMacro xv ks s') (execMacroBody v call os s)
  | [], cs, hc, _, _, _, hs => by
    simp only [absInstrs] at hc; cases hc
    simp only [xMacro, execMacroBody]; exact hs
  | k :: ks, cs, hc, hp, s', s, hs => by
    simp only [absInstrs] at hc
    simp only [xMacro]
    by_cases hk : k.isText = true
    · rw [if_pos hk] at hc ⊢; exact xMacro_sim V hc hp.rest hs
    · rw [if_neg hk] at hc ⊢
      obtain ⟨l, hl, hc⟩ := Option.bind_eq_some_iff.1 hc
      obtain ⟨os, h, rfl⟩ := Option.map_eq_some_iff.1 hc
      simp only [execMacroBody]
      refine (xInstr_sim V hl hp.head hs).bind ?_
      rintro ⟨w1, s1'⟩ ⟨w2, s1⟩ ⟨_, hs1⟩
      exact xMacro_sim V h hp.rest hs1

end Verif.Dom
