import Verif.Whole.Spec
import Verif.Transfer.More
/-!
# C74: a rule does not see the words after those it matches
-/
namespace Verif.Whole
open Verif.Transfer

variable (X : List TWord) (Y : List (Option Nat))

/-- The same state with more words. -/
def lift (s : TSt) : TSt := { s with heap := s.heap ++ X, word := s.word ++ Y }

/-- `n` words, all there. -/
structure Good (n : Nat) (s : TSt) : Prop where
  len : s.word.length = n
  ptr : ∀ i, some i ∈ s.word → i < s.heap.length

/-- What `f` does is the same with more words. -/
def Com {α : Type} (n : Nat) (f : TSt → Outcome (α × TSt)) : Prop :=
  ∀ s, Good n s → f (lift X Y s) = (f s).map (fun p => (p.1, lift X Y p.2)) ∧ ∀ p, f s = .ok p → Good n p.2

/-- The same for what gives just a state. -/
def Com1 (n : Nat) (f : TSt → Outcome TSt) : Prop :=
  ∀ s, Good n s → f (lift X Y s) = (f s).map (lift X Y) ∧ ∀ s', f s = .ok s' → Good n s'

variable {X Y} {n : Nat} {α β : Type}

theorem Com.pure (a : α) : Com X Y n (fun s => .ok (a, s)) := fun s hs => ⟨rfl, fun p h => by cases h; exact hs⟩

theorem Com.bad {o : Outcome (α × TSt)} (h : o = .fail ∨ o = .ub ∨ o = .diverge) : Com X Y n (fun _ => o) := fun s _ => by
  rcases h with rfl | rfl | rfl <;> exact ⟨rfl, fun p h => by cases h⟩

theorem Com.bind {f : TSt → Outcome (α × TSt)} {g : α → TSt → Outcome (β × TSt)} (hf : Com X Y n f) (hg : ∀ a, Com X Y n (g a)) :
    Com X Y n (fun s => (f s).bind fun p => g p.1 p.2) := by
  intro s hs
  obtain ⟨h1, h2⟩ := hf s hs
  dsimp only
  rw [h1]
  cases hx : f s with
  | ok p => exact hg p.1 p.2 (h2 p hx)
  | fail => exact ⟨rfl, fun p h => by cases h⟩
  | diverge => exact ⟨rfl, fun p h => by cases h⟩
  | ub => exact ⟨rfl, fun p h => by cases h⟩

theorem Com.map {f : TSt → Outcome (α × TSt)} (hf : Com X Y n f) (g : α → β) : Com X Y n (fun s => (f s).map fun p => (g p.1, p.2)) := by
  intro s hs
  obtain ⟨h1, h2⟩ := hf s hs
  dsimp only
  rw [h1]
  cases hx : f s with
  | ok p => exact ⟨rfl, fun q h => by cases h; exact h2 p hx⟩
  | fail => exact ⟨rfl, fun p h => by cases h⟩
  | diverge => exact ⟨rfl, fun p h => by cases h⟩
  | ub => exact ⟨rfl, fun p h => by cases h⟩

theorem Com.pre {f : TSt → Outcome (α × TSt)} (hf : Com X Y n f) (g : TSt → TSt) (h1 : ∀ s, g (lift X Y s) = lift X Y (g s))
    (h2 : ∀ s, Good n s → Good n (g s)) : Com X Y n (fun s => f (g s)) := by
  intro s hs
  dsimp only
  rw [h1]
  exact hf _ (h2 s hs)

/-- After `f`, the state is changed, in a way that depends on the value. -/
theorem Com.post {f : TSt → Outcome (α × TSt)} (hf : Com X Y n f) (g : α → TSt → TSt) (h1 : ∀ a s, g a (lift X Y s) = lift X Y (g a s))
    (h2 : ∀ a s, Good n s → Good n (g a s)) : Com1 X Y n (fun s => (f s).map fun p => g p.1 p.2) := by
  intro s hs
  obtain ⟨h3, h4⟩ := hf s hs
  dsimp only
  rw [h3]
  cases hx : f s with
  | ok p => exact ⟨congrArg Outcome.ok (h1 _ _), fun q h => by cases h; exact h2 _ _ (h4 p hx)⟩
  | fail => exact ⟨rfl, fun p h => by cases h⟩
  | diverge => exact ⟨rfl, fun p h => by cases h⟩
  | ub => exact ⟨rfl, fun p h => by cases h⟩

theorem Com.bind1 {f : TSt → Outcome (α × TSt)} {g : α → TSt → Outcome TSt} (hf : Com X Y n f) (hg : ∀ a, Com1 X Y n (g a)) :
    Com1 X Y n (fun s => (f s).bind fun p => g p.1 p.2) := by
  intro s hs
  obtain ⟨h1, h2⟩ := hf s hs
  dsimp only
  rw [h1]
  cases hx : f s with
  | ok p => exact hg p.1 p.2 (h2 p hx)
  | fail => exact ⟨rfl, fun p h => by cases h⟩
  | diverge => exact ⟨rfl, fun p h => by cases h⟩
  | ub => exact ⟨rfl, fun p h => by cases h⟩

theorem Com1.pure : Com1 X Y n (fun s => .ok s) := fun s hs => ⟨rfl, fun p h => by cases h; exact hs⟩

theorem Com1.bad {o : Outcome TSt} (h : o = .fail ∨ o = .ub ∨ o = .diverge) : Com1 X Y n (fun _ => o) := fun s _ => by
  rcases h with rfl | rfl | rfl <;> exact ⟨rfl, fun p h => by cases h⟩

theorem Com1.pre {f : TSt → Outcome TSt} (hf : Com1 X Y n f) (g : TSt → TSt) (h1 : ∀ s, g (lift X Y s) = lift X Y (g s))
    (h2 : ∀ s, Good n s → Good n (g s)) : Com1 X Y n (fun s => f (g s)) := by
  intro s hs
  dsimp only
  rw [h1]
  exact hf _ (h2 s hs)

theorem Com1.give {f : TSt → Outcome TSt} (hf : Com1 X Y n f) (a : α) : Com X Y n (fun s => (f s).map fun s' => (a, s')) := by
  intro s hs
  obtain ⟨h1, h2⟩ := hf s hs
  dsimp only
  rw [h1]
  cases hx : f s with
  | ok p => exact ⟨rfl, fun q h => by cases h; exact h2 p hx⟩
  | fail => exact ⟨rfl, fun p h => by cases h⟩
  | diverge => exact ⟨rfl, fun p h => by cases h⟩
  | ub => exact ⟨rfl, fun p h => by cases h⟩

theorem Com1.mapS {f : TSt → Outcome TSt} (hf : Com1 X Y n f) (g : TSt → TSt) (h1 : ∀ s, g (lift X Y s) = lift X Y (g s))
    (h2 : ∀ s, Good n s → Good n (g s)) : Com1 X Y n (fun s => (f s).map g) := by
  intro s hs
  obtain ⟨h3, h4⟩ := hf s hs
  dsimp only
  rw [h3]
  cases hx : f s with
  | ok p => exact ⟨congrArg Outcome.ok (h1 _), fun q h => by cases h; exact h2 _ (h4 p hx)⟩
  | fail => exact ⟨rfl, fun p h => by cases h⟩
  | diverge => exact ⟨rfl, fun p h => by cases h⟩
  | ub => exact ⟨rfl, fun p h => by cases h⟩

/-! ## Words -/

theorem wordAt_lift (s : TSt) (hs : Good n s) (pos : Int) (h : Y = [] ∨ pos < n) : (lift X Y s).wordAt pos = s.wordAt pos := by
  unfold TSt.wordAt lift
  dsimp only
  have hl := hs.len
  by_cases h0 : pos ≥ s.word.length
  · have hy : Y = [] := h.resolve_right (by omega)
    subst hy
    rw [if_pos (by simpa using h0), if_pos h0]
  · rw [if_neg (by simp; omega), if_neg h0]
    by_cases h1 : pos < 0
    · rw [if_pos h1, if_pos h1]
    · rw [if_neg h1, if_neg h1, List.getElem?_append_left (by omega)]
      cases hw : s.word[pos.toNat]? with
      | none => rfl
      | some o =>
        cases o with
        | none => rfl
        | some i =>
          dsimp only
          rw [List.getElem?_append_left (hs.ptr i (List.mem_of_getElem? hw))]

theorem Com.wordAt (pos : Int) (h : Y = [] ∨ pos < n) (f : Option (Nat × TWord) → TSt → Outcome (α × TSt)) (hf : ∀ o, Com X Y n (f o)) :
    Com X Y n (fun s => f (s.wordAt pos) s) := by
  intro s hs
  dsimp only
  rw [wordAt_lift s hs pos h]
  exact hf _ s hs

variable (env : TEnv)

theorem addWblank_com (part wb : Text) : Com1 X Y n (addWblank env part wb) := by
  intro s hs
  unfold addWblank
  split
  · show (if s.inLu then _ else _) = _ ∧ _
    split
    · show (combineWblanks s.outWb wb).map _ = _ ∧ _
      cases combineWblanks s.outWb wb with
      | ok t => exact ⟨rfl, fun q h => by cases h; exact ⟨hs.len, hs.ptr⟩⟩
      | fail => exact ⟨rfl, fun p h => by cases h⟩
      | diverge => exact ⟨rfl, fun p h => by cases h⟩
      | ub => exact ⟨rfl, fun p h => by cases h⟩
    · show (if s.inLetVar then _ else _) = _ ∧ _
      split
      · show (combineWblanks (s.varWb s.varVal) wb).map _ = _ ∧ _
        cases combineWblanks (s.varWb s.varVal) wb with
        | ok t => exact ⟨rfl, fun q h => by cases h; exact ⟨hs.len, hs.ptr⟩⟩
        | fail => exact ⟨rfl, fun p h => by cases h⟩
        | diverge => exact ⟨rfl, fun p h => by cases h⟩
        | ub => exact ⟨rfl, fun p h => by cases h⟩
      · exact ⟨rfl, fun q h => by cases h; exact hs⟩
  · exact ⟨rfl, fun q h => by cases h; exact hs⟩

theorem evalSimple_com (e : Simple) (h : Y = [] ∨ e.within n) : Com X Y n (evalSimple env e) := by
  cases e with
  | clip pos sd part q linkTo =>
    refine Com.wordAt (pos - 1) (h.imp id (fun h => by simp only [Simple.within] at h; omega)) (fun o s => match o with
      | none => .ok ([], s)
      | some (_, w) =>
        if linkTo ≠ [] then
          .ok (if w.read sd (env.attr part) q ≠ [] then '<' :: linkTo ++ ['>'] else [], s)
        else if sd = .ref then .ok (w.read sd (env.attr part) q, s)
        else (addWblank env part w.wb s).map fun s' => (w.read sd (env.attr part) q, s')) (fun o => ?_)
    rcases o with _ | ⟨i, w⟩
    · exact Com.pure _
    · dsimp only
      by_cases h1 : linkTo ≠ []
      · simp only [if_pos h1]; exact Com.pure _
      · simp only [if_neg h1]
        by_cases h2 : sd = .ref
        · simp only [if_pos h2]; exact Com.pure _
        · simp only [if_neg h2]; exact (addWblank_com env part w.wb).give _
  | lit v => exact Com.pure _
  | var m =>
    intro s hs
    simp only [evalSimple]
    by_cases hl : env.lastLword > 1
    · simp only [if_pos hl]
      show (combineWblanks s.outWb (s.varWb m)).map _ = _ ∧ _
      cases combineWblanks s.outWb (s.varWb m) with
      | ok t => exact ⟨rfl, fun q h => by cases h; exact ⟨hs.len, hs.ptr⟩⟩
      | fail => exact ⟨rfl, fun p h => by cases h⟩
      | diverge => exact ⟨rfl, fun p h => by cases h⟩
      | ub => exact ⟨rfl, fun p h => by cases h⟩
    · simp only [if_neg hl]
      exact ⟨rfl, fun q h => by cases h; exact hs⟩

/-- The first word is the same: there is one, or there are no words to add. -/
theorem head_lift (s : TSt) (hs : Good n s) (h : Y = [] ∨ 1 ≤ n) : (s.word = [] ∧ (lift X Y s).word = []) ∨
    ∃ o r r', s.word = o :: r ∧ (lift X Y s).word = o :: r' ∧ ∀ i, o = some i → ∃ w, s.heap[i]? = some w ∧ (lift X Y s).heap[i]? = some w := by
  cases hw : s.word with
  | nil =>
    left
    refine ⟨rfl, ?_⟩
    have hl := hs.len
    rw [hw] at hl
    rcases h with rfl | h
    · simp [lift, hw]
    · simp at hl; omega
  | cons o r =>
    right
    refine ⟨o, r, r ++ Y, rfl, by simp [lift, hw], fun i hi => ?_⟩
    have hp := hs.ptr i (by rw [hw, hi]; simp)
    refine ⟨s.heap[i], by simp [hp], ?_⟩
    simp only [lift]
    rw [List.getElem?_append_left hp]
    simp [hp]

theorem finishLu_word (t : Text) (s : TSt) (h : env.lastLword = 1) {i : Nat} {r : List (Option Nat)} {w : TWord} (h1 : s.word = some i :: r) (h2 : s.heap[i]? = some w) :
    finishLu env t s = .ok (luText w.wb t, { s with outWb := w.wb }) := by
  obtain ⟨heap, word, _, _, _, _, _, _, _, _, _⟩ := s
  dsimp only at h1 h2
  subst h1
  simp only [finishLu, if_pos h, h2]

theorem finishMlu_word (t : Text) (s : TSt) (h : env.lastLword = 1) {i : Nat} {r : List (Option Nat)} {w : TWord} (h1 : s.word = some i :: r) (h2 : s.heap[i]? = some w) :
    finishMlu env t s = .ok (mluText w.wb t, { s with outWb := w.wb }) := by
  obtain ⟨heap, word, _, _, _, _, _, _, _, _, _⟩ := s
  dsimp only at h1 h2
  subst h1
  simp only [finishMlu, if_pos h, h2]

theorem finishLu_com (t : Text) (h : Y = [] ∨ 1 ≤ n) : Com X Y n (finishLu env t) := by
  intro s hs
  by_cases hl : env.lastLword = 1
  · rcases head_lift (X := X) s hs h with ⟨h1, h2⟩ | ⟨o, r, r', h1, h2, h3⟩
    · have e : ∀ s : TSt, s.word = [] → finishLu env t s = .ok (luText s.outWb t, s) := by
        intro s h1
        simp only [finishLu, if_pos hl, h1]
      rw [e _ h1, e _ h2]
      exact ⟨rfl, fun q h => by cases h; exact hs⟩
    · cases o with
      | none =>
        have e : ∀ (s : TSt) r, s.word = none :: r → finishLu env t s = .ub := by
          intro s r h1
          simp only [finishLu, if_pos hl, h1]
        rw [e _ _ h1, e _ _ h2]
        exact ⟨rfl, fun q h => by cases h⟩
      | some i =>
        obtain ⟨w, h4, h5⟩ := h3 i rfl
        rw [finishLu_word env t s hl h1 h4, finishLu_word env t _ hl h2 h5]
        exact ⟨rfl, fun q h => by cases h; exact ⟨hs.len, hs.ptr⟩⟩
  · simp only [finishLu, if_neg hl]
    exact ⟨rfl, fun q h => by cases h; exact hs⟩

theorem finishMlu_com (t : Text) (h : Y = [] ∨ 1 ≤ n) : Com X Y n (finishMlu env t) := by
  intro s hs
  by_cases hl : env.lastLword = 1
  · rcases head_lift (X := X) s hs h with ⟨h1, h2⟩ | ⟨o, r, r', h1, h2, h3⟩
    · have e : ∀ s : TSt, s.word = [] → finishMlu env t s = .ub := by
        intro s h1
        simp only [finishMlu, if_pos hl, h1]
      rw [e _ h1, e _ h2]
      exact ⟨rfl, fun q h => by cases h⟩
    · cases o with
      | none =>
        have e : ∀ (s : TSt) r, s.word = none :: r → finishMlu env t s = .ub := by
          intro s r h1
          simp only [finishMlu, if_pos hl, h1]
        rw [e _ _ h1, e _ _ h2]
        exact ⟨rfl, fun q h => by cases h⟩
      | some i =>
        obtain ⟨w, h4, h5⟩ := h3 i rfl
        rw [finishMlu_word env t s hl h1 h4, finishMlu_word env t _ hl h2 h5]
        exact ⟨rfl, fun q h => by cases h; exact ⟨hs.len, hs.ptr⟩⟩
  · simp only [finishMlu, if_neg hl]
    exact ⟨rfl, fun q h => by cases h; exact hs⟩

theorem blank_com : Com X Y n (evalExpr env .blank) := by
  intro s hs
  obtain ⟨heap, word, _, _, _, _, _, inOut, _, blanks, _⟩ := s
  simp only [evalExpr, lift]
  cases blanks with
  | nil => exact ⟨rfl, fun q h => by cases h; exact hs⟩
  | cons b bs =>
    cases inOut with
    | true => exact ⟨rfl, fun q h => by cases h; exact ⟨hs.len, hs.ptr⟩⟩
    | false => exact ⟨rfl, fun q h => by cases h; exact hs⟩

/-! ## Expressions -/

theorem Com.seq {f g : TSt → Outcome (Text × TSt)} (hf : Com X Y n f) (hg : Com X Y n g) (k : Text → Text → Text) :
    Com X Y n (fun s => (f s).bind fun (t, s1) => (g s1).map fun (u, s2) => (k t u, s2)) :=
  Com.bind (g := fun t s1 => (g s1).map fun (u, s2) => (k t u, s2)) hf (fun t => hg.map (k t))

mutual
theorem evalExpr_com (h1 : Y = [] ∨ 1 ≤ n) : (e : Expr) → (Y = [] ∨ e.within n) → Com X Y n (evalExpr env e)
  | .simple e, h => by simp only [evalExpr]; exact evalSimple_com env e h
  | .litTag v, _ => by simp only [evalExpr]; exact Com.pure _
  | .blank, _ => blank_com env
  | .getCaseFrom pos e, h => by
    have h2 := evalSimple_com (X := X) env e (h.imp id (fun h => by simp only [Expr.within] at h; exact h.2))
    have h3 : Y = [] ∨ pos - 1 < n := h.imp id (fun h => by simp only [Expr.within] at h; omega)
    have h4 := Com.wordAt (X := X) (pos - 1) h3 (fun o s => match o with
      | none => Outcome.ok ([], s)
      | some (_, w) => (evalSimple env e s).map fun (d, s') => (env.baseCopycase (w.read .sl (env.attr t!"lem") true) d, s')) (fun o => by
        rcases o with _ | ⟨i, w⟩
        · exact Com.pure _
        · exact h2.map _)
    intro s hs
    simp only [evalExpr]
    exact h4 s hs
  | .luCount, _ => by simp only [evalExpr]; exact Com.bad (Or.inl rfl)
  | .caseOf pos sd part, h => by
    have h3 : Y = [] ∨ pos - 1 < n := h.imp id (fun h => by simp only [Expr.within] at h; omega)
    have h4 := Com.wordAt (X := X) (pos - 1) h3 (fun o s => match o with
      | none => Outcome.ok ([], s)
      | some (_, w) => Outcome.ok (env.getcase (w.read sd (env.attr part) true), s)) (fun o => by
        rcases o with _ | ⟨i, w⟩
        · exact Com.pure _
        · exact Com.pure _)
    intro s hs
    simp only [evalExpr]
    exact h4 s hs
  | .concat es, h => by
    have h2 := evalList_com h1 es (h.imp id (fun h => by simp only [Expr.within] at h; exact h))
    intro s hs
    simp only [evalExpr]
    exact h2 s hs
  | .lu es, h => by
    have h2 := evalList_com h1 es (h.imp id (fun h => by simp only [Expr.within] at h; exact h))
    have h3 := Com.bind (h2.pre (fun s => { s with inLu := true, outWb := [] }) (fun _ => rfl) (fun _ hs => ⟨hs.len, hs.ptr⟩))
      (fun t => (finishLu_com (X := X) env t h1).pre (fun s => { s with inLu := false }) (fun _ => rfl) (fun _ hs => ⟨hs.len, hs.ptr⟩))
    intro s hs
    simp only [evalExpr]
    exact h3 s hs
  | .mlu ls, h => by
    have h2 := evalMlu_com h1 ls true (h.imp id (fun h => by simp only [Expr.within] at h; exact h))
    have h3 := Com.bind (h2.pre (fun s => { s with inLu := true, outWb := [] }) (fun _ => rfl) (fun _ hs => ⟨hs.len, hs.ptr⟩))
      (fun t => finishMlu_com (X := X) env t h1)
    intro s hs
    simp only [evalExpr]
    exact h3 s hs
  | .chunk name namefrom caseVar items, h => by
    have h2 := evalChunk_com h1 items (h.imp id (fun h => by simp only [Expr.within] at h; exact h))
    intro s hs
    simp only [evalExpr]
    show (chunkName env name namefrom caseVar s).bind _ = _ ∧ _
    cases chunkName env name namefrom caseVar s with
    | ok nm => exact (h2.map (fun t => '^' :: nm ++ t ++ ['}', '$'])) s hs
    | fail => exact ⟨rfl, fun p h => by cases h⟩
    | diverge => exact ⟨rfl, fun p h => by cases h⟩
    | ub => exact ⟨rfl, fun p h => by cases h⟩
  | .tags _, _ => by simp only [evalExpr]; exact Com.bad (Or.inl rfl)
  | .unknown, _ => by simp only [evalExpr]; exact Com.bad (Or.inl rfl)
theorem evalList_com (h1 : Y = [] ∨ 1 ≤ n) : (es : List Expr) → (Y = [] ∨ Expr.withinL n es) → Com X Y n (evalList env es)
  | [], _ => by intro s hs; simp only [evalList]; exact Com.pure _ s hs
  | e :: es, h => by
    have h2 := evalExpr_com h1 e (h.imp id (fun h => by simp only [Expr.withinL] at h; exact h.1))
    have h3 := evalList_com h1 es (h.imp id (fun h => by simp only [Expr.withinL] at h; exact h.2))
    intro s hs
    simp only [evalList]
    exact Com.seq h2 h3 (fun t u => t ++ u) s hs
theorem evalMlu_com (h1 : Y = [] ∨ 1 ≤ n) : (ls : List (List Expr)) → (first : Bool) → (Y = [] ∨ Expr.withinLL n ls) → Com X Y n (evalMlu env ls first)
  | [], _, _ => by intro s hs; simp only [evalMlu]; exact Com.pure _ s hs
  | l :: ls, first, h => by
    have h2 := evalList_com h1 l (h.imp id (fun h => by simp only [Expr.withinLL] at h; exact h.1))
    have h3 := fun first => evalMlu_com h1 ls first (h.imp id (fun h => by simp only [Expr.withinLL] at h; exact h.2))
    intro s hs
    simp only [evalMlu]
    exact Com.bind h2 (fun w => (h3 (first && decide (w = []))).map
      (fun u => (if first = false ∧ w ≠ [] ∧ w.head? ≠ some '#' then ['+'] else []) ++ w ++ u)) s hs
theorem evalTags_com (h1 : Y = [] ∨ 1 ≤ n) : (ls : List (List Expr)) → (Y = [] ∨ Expr.withinLL n ls) → Com X Y n (evalTags env ls)
  | [], _ => by intro s hs; simp only [evalTags]; exact Com.pure _ s hs
  | l :: ls, h => by
    have h2 := evalList_com h1 l (h.imp id (fun h => by simp only [Expr.withinLL] at h; exact h.1))
    have h3 := evalTags_com h1 ls (h.imp id (fun h => by simp only [Expr.withinLL] at h; exact h.2))
    intro s hs
    simp only [evalTags]
    exact Com.seq h2 h3 (fun t u => t ++ u) s hs
theorem evalChunk_com (h1 : Y = [] ∨ 1 ≤ n) : (es : List Expr) → (Y = [] ∨ Expr.withinL n es) → Com X Y n (evalChunk env es)
  | [], _ => by intro s hs; simp only [evalChunk]; exact Com.pure _ s hs
  | e :: es, h => by
    have h3 := evalChunk_com h1 es (h.imp id (fun h => by simp only [Expr.withinL] at h; exact h.2))
    have he : Y = [] ∨ e.within n := h.imp id (fun h => by simp only [Expr.withinL] at h; exact h.1)
    by_cases ht : ∃ ts, e = .tags ts
    · obtain ⟨ts, rfl⟩ := ht
      have h2 := evalTags_com h1 ts (he.imp id (fun h => by simp only [Expr.within] at h; exact h))
      intro s hs
      simp only [evalChunk]
      exact Com.seq h2 h3 (fun t u => t ++ '{' :: u) s hs
    · have h2 := evalExpr_com h1 e he
      intro s hs
      rw [evalChunk.eq_3 env _ _ _ (fun ts hts => ht ⟨ts, hts⟩), evalChunk.eq_3 env _ _ _ (fun ts hts => ht ⟨ts, hts⟩)]
      exact Com.seq h2 h3 (fun t u => t ++ u) s hs
end

/-! ## Instructions -/

theorem eval2_com (h1 : Y = [] ∨ 1 ≤ n) (a b : Expr) (h : Y = [] ∨ (a.within n ∧ b.within n)) : Com X Y n (eval2 (virt env) a b) :=
  Com.bind (evalExpr_com env h1 a (h.imp id And.left)) (fun x => (evalExpr_com env h1 b (h.imp id And.right)).map (fun y => (x, y)))

mutual
theorem evalCond_com (h1 : Y = [] ∨ 1 ≤ n) : (c : Cond) → (Y = [] ∨ c.within n) → Com X Y n (evalCond (virt env) c)
  | .equal cl a b, h => by
    have h2 := (eval2_com (X := X) env h1 a b (h.imp id (fun h => by simpa only [Cond.within] using h))).map
      (fun p => decide ((virt env).fold cl p.1 = (virt env).fold cl p.2))
    intro s hs; simp only [evalCond]; exact h2 s hs
  | .beginsWith cl a b, h => by
    have h2 := (eval2_com (X := X) env h1 a b (h.imp id (fun h => by simpa only [Cond.within] using h))).map
      (fun p => beginsWith ((virt env).fold cl p.1) ((virt env).fold cl p.2))
    intro s hs; simp only [evalCond]; exact h2 s hs
  | .endsWith cl a b, h => by
    have h2 := (eval2_com (X := X) env h1 a b (h.imp id (fun h => by simpa only [Cond.within] using h))).map
      (fun p => endsWith ((virt env).fold cl p.1) ((virt env).fold cl p.2))
    intro s hs; simp only [evalCond]; exact h2 s hs
  | .containsSubstring cl a b, h => by
    have h2 := (eval2_com (X := X) env h1 a b (h.imp id (fun h => by simpa only [Cond.within] using h))).map
      (fun p => contains ((virt env).fold cl p.1) ((virt env).fold cl p.2))
    intro s hs; simp only [evalCond]; exact h2 s hs
  | .beginsWithList cl a l, h => by
    have h2 := (evalExpr_com (X := X) env h1 a (h.imp id (fun h => by simpa only [Cond.within] using h))).map
      (fun x => ((virt env).pickList cl l).any (beginsWith ((virt env).fold cl x)))
    intro s hs; simp only [evalCond]; exact h2 s hs
  | .endsWithList cl a l, h => by
    have h2 := (evalExpr_com (X := X) env h1 a (h.imp id (fun h => by simpa only [Cond.within] using h))).map
      (fun x => ((virt env).pickList cl l).any (endsWith ((virt env).fold cl x)))
    intro s hs; simp only [evalCond]; exact h2 s hs
  | .isIn cl a l, h => by
    have h2 := (evalExpr_com (X := X) env h1 a (h.imp id (fun h => by simpa only [Cond.within] using h))).map
      (fun x => decide ((virt env).fold cl x ∈ (virt env).pickList cl l))
    intro s hs; simp only [evalCond]; exact h2 s hs
  | .and cs, h => by
    have h2 := evalAnd_com h1 cs (h.imp id (fun h => by simpa only [Cond.within] using h))
    intro s hs; simp only [evalCond]; exact h2 s hs
  | .or cs, h => by
    have h2 := evalOr_com h1 cs (h.imp id (fun h => by simpa only [Cond.within] using h))
    intro s hs; simp only [evalCond]; exact h2 s hs
  | .not cs, h => by
    have h2 := evalNot_com h1 cs (h.imp id (fun h => by simpa only [Cond.within] using h))
    intro s hs; simp only [evalCond]; exact h2 s hs
  | .unknown, _ => by intro s hs; simp only [evalCond]; exact Com.pure _ s hs
theorem evalAnd_com (h1 : Y = [] ∨ 1 ≤ n) : (cs : List Cond) → (Y = [] ∨ Cond.withinL n cs) → Com X Y n (evalAnd (virt env) cs)
  | [], _ => by intro s hs; simp only [evalAnd]; exact Com.pure _ s hs
  | c :: cs, h => by
    have h2 := evalCond_com h1 c (h.imp id (fun h => by simp only [Cond.withinL] at h; exact h.1))
    have h3 := evalAnd_com h1 cs (h.imp id (fun h => by simp only [Cond.withinL] at h; exact h.2))
    have h4 := Com.bind h2 (g := fun b s' => if b then evalAnd (virt env) cs s' else .ok (false, s')) (fun b => by
      cases b
      · exact Com.pure _
      · exact h3)
    intro s hs; simp only [evalAnd]; exact h4 s hs
theorem evalOr_com (h1 : Y = [] ∨ 1 ≤ n) : (cs : List Cond) → (Y = [] ∨ Cond.withinL n cs) → Com X Y n (evalOr (virt env) cs)
  | [], _ => by intro s hs; simp only [evalOr]; exact Com.pure _ s hs
  | c :: cs, h => by
    have h2 := evalCond_com h1 c (h.imp id (fun h => by simp only [Cond.withinL] at h; exact h.1))
    have h3 := evalOr_com h1 cs (h.imp id (fun h => by simp only [Cond.withinL] at h; exact h.2))
    have h4 := Com.bind h2 (g := fun b s' => if b then .ok (true, s') else evalOr (virt env) cs s') (fun b => by
      cases b
      · exact h3
      · exact Com.pure _)
    intro s hs; simp only [evalOr]; exact h4 s hs
theorem evalNot_com (h1 : Y = [] ∨ 1 ≤ n) : (cs : List Cond) → (Y = [] ∨ Cond.withinL n cs) → Com X Y n (evalNot (virt env) cs)
  | [], _ => by intro s hs; simp only [evalNot]; exact Com.pure _ s hs
  | c :: cs, h => by
    have h2 := (evalCond_com h1 c (h.imp id (fun h => by simp only [Cond.withinL] at h; exact h.1))).map (fun b => !b)
    intro s hs; simp only [evalNot]; exact h2 s hs
end

theorem evalTest_com (h1 : Y = [] ∨ 1 ≤ n) (cs : List Cond) (h : Y = [] ∨ Cond.withinL n cs) : Com X Y n (evalTest (virt env) cs) := by
  cases cs with
  | nil => exact Com.pure _
  | cons c cs => exact evalCond_com env h1 c (h.imp id (fun h => by simp only [Cond.withinL] at h; exact h.1))

theorem outLoop_com (h1 : Y = [] ∨ 1 ≤ n) (es : List Expr) (h : Y = [] ∨ Expr.withinL n es) : Com1 X Y n (outLoop env es) := by
  induction es with
  | nil => exact Com1.pure
  | cons e es ih =>
    exact Com.bind1 (evalExpr_com env h1 e (h.imp id (fun h => by simp only [Expr.withinL] at h; exact h.1)))
      (g := fun t s' => outLoop env es { s' with out := s'.out ++ t })
      (fun t => (ih (h.imp id (fun h => by simp only [Expr.withinL] at h; exact h.2))).pre (fun s' => { s' with out := s'.out ++ t }) (fun _ => rfl)
        (fun _ hs => ⟨hs.len, hs.ptr⟩))

theorem processOut_com (h1 : Y = [] ∨ 1 ≤ n) (es : List Expr) (h : Y = [] ∨ Expr.withinL n es) : Com1 X Y n (processOut env es) :=
  ((outLoop_com env h1 es h).pre (fun s => { s with inOut := true }) (fun _ => rfl) (fun _ hs => ⟨hs.len, hs.ptr⟩)).mapS
    (fun s => { s with inOut := false }) (fun _ => rfl) (fun _ hs => ⟨hs.len, hs.ptr⟩)

theorem processAppend_com (h1 : Y = [] ∨ 1 ≤ n) (m : Text) (es : List Expr) (h : Y = [] ∨ Expr.withinL n es) : Com1 X Y n (processAppend env m es) := by
  induction es with
  | nil => exact Com1.pure
  | cons e es ih =>
    exact Com.bind1 ((evalExpr_com env h1 e (h.imp id (fun h => by simp only [Expr.withinL] at h; exact h.1))).pre
        (fun s => { s with inLetVar := true, varVal := m }) (fun _ => rfl) (fun _ hs => ⟨hs.len, hs.ptr⟩))
      (g := fun t s' => processAppend env m es { s' with vars := upd s'.vars m (s'.vars m ++ t), inLetVar := false })
      (fun t => (ih (h.imp id (fun h => by simp only [Expr.withinL] at h; exact h.2))).pre
        (fun s' => { s' with vars := upd s'.vars m (s'.vars m ++ t), inLetVar := false }) (fun _ => rfl) (fun _ hs => ⟨hs.len, hs.ptr⟩))

/-- A word is changed. -/
theorem setWord_com (i : Nat) (f : TWord → Outcome TWord) (s : TSt) (hs : Good n s) (hi : i < s.heap.length) :
    (match (lift X Y s).heap[i]? with
      | none => Outcome.ub
      | some w => (f w).map fun w' => { lift X Y s with heap := (lift X Y s).heap.set i w' }) =
    (match s.heap[i]? with
      | none => Outcome.ub
      | some w => (f w).map fun w' => { s with heap := s.heap.set i w' }).map (lift X Y) ∧
    ∀ s', (match s.heap[i]? with
      | none => Outcome.ub
      | some w => (f w).map fun w' => { s with heap := s.heap.set i w' }) = .ok s' → Good n s' := by
  have e : (lift X Y s).heap[i]? = s.heap[i]? := List.getElem?_append_left hi
  rw [e, List.getElem?_eq_getElem hi]
  dsimp only
  cases f s.heap[i] with
  | ok w' =>
    refine ⟨?_, fun s' h => by cases h; exact ⟨hs.len, fun j hj => by simpa using hs.ptr j hj⟩⟩
    simp only [Outcome.map_ok, lift, List.set_append_left _ _ hi]
  | fail => exact ⟨rfl, fun p h => by cases h⟩
  | diverge => exact ⟨rfl, fun p h => by cases h⟩
  | ub => exact ⟨rfl, fun p h => by cases h⟩

theorem wordAt_lt {s : TSt} (hs : Good n s) {pos : Int} {i : Nat} {w : TWord} (h : s.wordAt pos = some (i, w)) : i < s.heap.length := by
  unfold TSt.wordAt at h
  split at h
  · cases h
  · split at h
    · cases h
    · split at h
      · rename_i j hj
        cases hx : s.heap[j]? with
        | none => rw [hx] at h; cases h
        | some w' =>
          rw [hx] at h
          injection h with h
          injection h with h _
          exact h ▸ hs.ptr j (List.mem_of_getElem? hj)
      · cases h

/-- The value is computed, then a word is changed with it. -/
theorem writeWord_com (h1 : Y = [] ∨ 1 ≤ n) (r : Expr) (hr : Y = [] ∨ r.within n) (i : Nat) (f : Text → TWord → Outcome TWord) (s : TSt) (hs : Good n s)
    (hi : i < s.heap.length) :
    ((evalExpr env r (lift X Y s)).bind fun (t, s') =>
      match s'.heap[i]? with
      | none => Outcome.ub
      | some w => (f t w).map fun w' => { s' with heap := s'.heap.set i w' }) =
    ((evalExpr env r s).bind fun (t, s') =>
      match s'.heap[i]? with
      | none => Outcome.ub
      | some w => (f t w).map fun w' => { s' with heap := s'.heap.set i w' }).map (lift X Y) ∧
    ∀ s', ((evalExpr env r s).bind fun (t, s') =>
      match s'.heap[i]? with
      | none => Outcome.ub
      | some w => (f t w).map fun w' => { s' with heap := s'.heap.set i w' }) = .ok s' → Good n s' := by
  obtain ⟨h2, h3⟩ := evalExpr_com (X := X) env h1 r hr s hs
  rw [h2]
  cases hx : evalExpr env r s with
  | ok p =>
    obtain ⟨t, s1⟩ := p
    exact setWord_com i (f t) s1 (h3 _ hx) (by rw [(evalExpr_facts env r hx).heap]; exact hi)
  | fail => exact ⟨rfl, fun p h => by cases h⟩
  | diverge => exact ⟨rfl, fun p h => by cases h⟩
  | ub => exact ⟨rfl, fun p h => by cases h⟩

theorem processLet_com (h1 : Y = [] ∨ 1 ≤ n) (l r : Expr) (h : Y = [] ∨ (l.within n ∧ r.within n)) : Com1 X Y n (processLet env l r) := by
  have hr := h.imp id And.right
  cases l with
  | simple e =>
    cases e with
    | lit v => exact Com1.pure
    | var m =>
      exact Com.post ((evalExpr_com (X := X) env h1 r hr).pre
        (fun s => { s with inLetVar := true, varVal := m, varWb := upd s.varWb m [] }) (fun _ => rfl) (fun _ hs => ⟨hs.len, hs.ptr⟩))
        (fun t s' => { s' with vars := upd s'.vars m t, inLetVar := false }) (fun _ _ => rfl) (fun _ _ hs => ⟨hs.len, hs.ptr⟩)
    | clip pos sd part q lt =>
      intro s hs
      have hl := hs.len
      have hp : Y = [] ∨ pos - 1 < n := h.imp id (fun h => by have := h.1; simp only [Expr.within, Simple.within] at this; omega)
      have e0 : (pos - 1 ≥ (lift X Y s).word.length) ↔ (pos - 1 ≥ s.word.length) := by
        simp only [lift, List.length_append]
        rcases hp with rfl | hp
        · simp
        · omega
      simp only [processLet]
      by_cases h2 : pos - 1 ≥ s.word.length
      · simp only [if_pos h2, if_pos (e0.2 h2)]
        exact Com1.pure s hs
      · simp only [if_neg h2, if_neg (fun h => h2 (e0.1 h))]
        by_cases h3 : pos - 1 < 0
        · simp only [if_pos h3]
          exact ⟨rfl, fun p h => by cases h⟩
        · simp only [if_neg h3]
          rw [wordAt_lift s hs _ hp]
          cases hw : s.wordAt (pos - 1) with
          | none => exact Com1.pure s hs
          | some iw =>
            obtain ⟨i, w⟩ := iw
            exact writeWord_com env h1 r hr i (fun t w => w.write sd (env.attr part) q t) s hs (wordAt_lt hs hw)
  | _ => exact Com1.pure

theorem processModifyCase_com (h1 : Y = [] ∨ 1 ≤ n) (l r : Expr) (h : Y = [] ∨ (l.within n ∧ r.within n)) : Com1 X Y n (processModifyCase env l r) := by
  have hr := h.imp id And.right
  intro s hs
  unfold processModifyCase
  by_cases hd : env.dictCase
  · simp only [if_pos hd]
    exact Com1.pure s hs
  · simp only [if_neg hd]
    cases l with
    | simple e =>
      cases e with
      | lit v => exact Com1.pure s hs
      | var m =>
        exact Com.post (evalExpr_com (X := X) env h1 r hr)
          (fun t s' => { s' with vars := upd s'.vars m (env.copycase t (s'.vars m)) }) (fun _ _ => rfl) (fun _ _ hs => ⟨hs.len, hs.ptr⟩) s hs
      | clip pos sd part q lt =>
        have hp : Y = [] ∨ pos - 1 < n := h.imp id (fun h => by have := h.1; simp only [Expr.within, Simple.within] at this; omega)
        dsimp only
        rw [wordAt_lift s hs _ hp]
        cases hw : s.wordAt (pos - 1) with
        | none => exact ⟨rfl, fun p h => by cases h⟩
        | some iw =>
          obtain ⟨i, w⟩ := iw
          exact writeWord_com env h1 r hr i (fun t w => w.write (if sd = .other then .tl else sd) (env.attr part) true
                (env.copycase t (w.read sd (env.attr part) q))) s hs (wordAt_lt hs hw)
    | _ => exact Com1.pure s hs

section
variable (call : Text → List Int → TSt → Outcome TSt) (hcall : ∀ m args, (Y = [] ∨ ∀ p ∈ args, p ≤ (n : Int)) → Com1 X Y n (call m args))
include hcall

mutual
theorem exec_com (h1 : Y = [] ∨ 1 ≤ n) : (i : Instr) → (Y = [] ∨ i.within n) → Com X Y n (exec (virt env) call i)
  | .choose opts, h => by
    have h2 := execChoose_com h1 opts (-1) (h.imp id (fun h => by simpa only [Instr.within] using h))
    intro s hs; simp only [exec]; exact h2 s hs
  | .assign l r, h => by
    have h2 := (processLet_com (X := X) env h1 l r (h.imp id (fun h => by simpa only [Instr.within] using h))).give (-1 : Int)
    intro s hs; simp only [exec]; exact h2 s hs
  | .append m es, h => by
    have h2 := (processAppend_com (X := X) env h1 m es (h.imp id (fun h => by simpa only [Instr.within] using h))).give (-1 : Int)
    intro s hs; simp only [exec]; exact h2 s hs
  | .out es, h => by
    have h2 := (processOut_com (X := X) env h1 es (h.imp id (fun h => by simpa only [Instr.within] using h))).give (-1 : Int)
    intro s hs; simp only [exec]; exact h2 s hs
  | .callMacro m args, h => by
    have h2 := (hcall m args (h.imp id (fun h => by simpa only [Instr.within] using h))).give (-1 : Int)
    intro s hs; simp only [exec]; exact h2 s hs
  | .modifyCase l r, h => by
    have h2 := (processModifyCase_com (X := X) env h1 l r (h.imp id (fun h => by simpa only [Instr.within] using h))).give (-1 : Int)
    intro s hs; simp only [exec]; exact h2 s hs
  | .reject sh, _ => by intro s hs; simp only [exec]; exact Com.pure _ s hs
  | .unknown, _ => by intro s hs; simp only [exec]; exact Com.pure _ s hs
theorem execChoose_com (h1 : Y = [] ∨ 1 ≤ n) : (os : List Opt) → (wtc : Int) → (Y = [] ∨ Opt.withinL n os) → Com X Y n (execChoose (virt env) call os wtc)
  | [], _, _ => by intro s hs; simp only [execChoose]; exact Com.pure _ s hs
  | .when items :: os, wtc, h => by
    have h2 := execWhen_com h1 items false wtc (h.imp id (fun h => by simp only [Opt.withinL, Opt.within] at h; exact h.1))
    have h3 := fun w => execChoose_com h1 os w (h.imp id (fun h => by simp only [Opt.withinL] at h; exact h.2))
    intro s hs
    simp only [execChoose]
    obtain ⟨h4, h5⟩ := h2 s hs
    rw [h4]
    cases hx : execWhen (virt env) call items false wtc s with
    | ok p =>
      obtain ⟨b, w, s'⟩ := p
      have hg := h5 _ hx
      show (if w ≠ -1 ∨ b = true then Outcome.ok (w, lift X Y s') else _) = (if w ≠ -1 ∨ b = true then _ else _ : Outcome _).map _ ∧
        ∀ q, (if w ≠ -1 ∨ b = true then _ else _ : Outcome _) = _ → _
      by_cases hb : w ≠ -1 ∨ b = true
      · simp only [if_pos hb]
        exact Com.pure w s' hg
      · simp only [if_neg hb]
        exact h3 w s' hg
    | fail => exact ⟨rfl, fun p h => by cases h⟩
    | diverge => exact ⟨rfl, fun p h => by cases h⟩
    | ub => exact ⟨rfl, fun p h => by cases h⟩
  | .otherwise body :: os, wtc, h => by
    have h2 := execBlock_com h1 body wtc (h.imp id (fun h => by simp only [Opt.withinL, Opt.within] at h; exact h.1))
    have h3 := fun w => execChoose_com h1 os w (h.imp id (fun h => by simp only [Opt.withinL] at h; exact h.2))
    have h4 := Com.bind h2 (g := fun w s' => if w ≠ -1 then .ok (w, s') else execChoose (virt env) call os w s') (fun w => by
      by_cases hw : w ≠ -1
      · simp only [if_pos hw]; exact Com.pure _
      · simp only [if_neg hw]; exact h3 w)
    intro s hs; simp only [execChoose]; exact h4 s hs
  | .unknown :: os, wtc, h => by
    have h3 := execChoose_com h1 os wtc (h.imp id (fun h => by simp only [Opt.withinL] at h; exact h.2))
    intro s hs; simp only [execChoose]; exact h3 s hs
theorem execWhen_com (h1 : Y = [] ∨ 1 ≤ n) : (is : List WhenItem) → (b : Bool) → (wtc : Int) → (Y = [] ∨ WhenItem.withinL n is) → ∀ s, Good n s →
    execWhen (virt env) call is b wtc (lift X Y s) = (execWhen (virt env) call is b wtc s).map (fun p => (p.1, p.2.1, lift X Y p.2.2)) ∧
    ∀ p, execWhen (virt env) call is b wtc s = .ok p → Good n p.2.2
  | [], b, wtc, _ => by intro s hs; simp only [execWhen]; exact ⟨rfl, fun p h => by cases h; exact hs⟩
  | .test cs :: is, b, wtc, h => by
    have h2 := evalTest_com (X := X) env h1 cs (h.imp id (fun h => by simp only [WhenItem.withinL, WhenItem.within] at h; exact h.1))
    have h3 := execWhen_com h1 is true wtc (h.imp id (fun h => by simp only [WhenItem.withinL] at h; exact h.2))
    intro s hs
    simp only [execWhen]
    obtain ⟨h4, h5⟩ := h2 s hs
    rw [h4]
    cases hx : evalTest (virt env) cs s with
    | ok p =>
      obtain ⟨c, s'⟩ := p
      have hg := h5 _ hx
      cases c with
      | true => exact h3 s' hg
      | false => exact ⟨rfl, fun p h => by cases h; exact hg⟩
    | fail => exact ⟨rfl, fun p h => by cases h⟩
    | diverge => exact ⟨rfl, fun p h => by cases h⟩
    | ub => exact ⟨rfl, fun p h => by cases h⟩
  | .instr i :: is, b, wtc, h => by
    have h2 := exec_com h1 i (h.imp id (fun h => by simp only [WhenItem.withinL, WhenItem.within] at h; exact h.1))
    have h3 := fun w => execWhen_com h1 is b w (h.imp id (fun h => by simp only [WhenItem.withinL] at h; exact h.2))
    intro s hs
    simp only [execWhen]
    obtain ⟨h4, h5⟩ := h2 s hs
    rw [h4]
    cases hx : exec (virt env) call i s with
    | ok p =>
      obtain ⟨w, s'⟩ := p
      have hg := h5 _ hx
      show (if w ≠ -1 then Outcome.ok (b, w, lift X Y s') else _) = (if w ≠ -1 then _ else _ : Outcome _).map _ ∧
        ∀ q, (if w ≠ -1 then _ else _ : Outcome _) = _ → _
      by_cases hw : w ≠ -1
      · simp only [if_pos hw]
        exact ⟨rfl, fun p h => by cases h; exact hg⟩
      · simp only [if_neg hw]
        exact h3 w s' hg
    | fail => exact ⟨rfl, fun p h => by cases h⟩
    | diverge => exact ⟨rfl, fun p h => by cases h⟩
    | ub => exact ⟨rfl, fun p h => by cases h⟩
theorem execBlock_com (h1 : Y = [] ∨ 1 ≤ n) : (is : List Instr) → (wtc : Int) → (Y = [] ∨ Instr.withinL n is) → Com X Y n (execBlock (virt env) call is wtc)
  | [], wtc, _ => by intro s hs; simp only [execBlock]; exact Com.pure _ s hs
  | i :: is, wtc, h => by
    have h2 := exec_com h1 i (h.imp id (fun h => by simp only [Instr.withinL] at h; exact h.1))
    have h3 := fun w => execBlock_com h1 is w (h.imp id (fun h => by simp only [Instr.withinL] at h; exact h.2))
    have h4 := Com.bind h2 (g := fun w s' => if w ≠ -1 then .ok (w, s') else execBlock (virt env) call is w s') (fun w => by
      by_cases hw : w ≠ -1
      · simp only [if_pos hw]; exact Com.pure _
      · simp only [if_neg hw]; exact h3 w)
    intro s hs; simp only [execBlock]; exact h4 s hs
end

theorem execMacroBody_com (hy : Y = []) (is : List Instr) : Com1 X Y n (execMacroBody (virt env) call is) := by
  induction is with
  | nil => exact Com1.pure
  | cons i is ih => exact Com.bind1 (exec_com env call hcall (Or.inl hy) i (Or.inl hy)) (g := fun _ s' => execMacroBody (virt env) call is s') (fun _ => ih)
end

/-! ## Macros -/

theorem macroArgs_append (word : List (Option Nat)) (args : List Int) (h : Y = [] ∨ ∀ p ∈ args, p ≤ (word.length : Int)) :
    macroArgs (word ++ Y) args = macroArgs word args := by
  rcases h with rfl | h
  · rw [List.append_nil]
  · induction args with
    | nil => rfl
    | cons p ps ih =>
      have hp := h p (by simp)
      simp only [macroArgs]
      rw [ih (fun q hq => h q (by simp [hq]))]
      by_cases h0 : p - 1 < 0
      · rw [if_pos h0, if_pos h0]
      · rw [if_neg h0, if_neg h0, List.getElem?_append_left (by omega)]

theorem macroArgs_ptr {s : TSt} (hs : Good n s) {args : List Int} {ws : List (Option Nat)} (h : macroArgs s.word args = some ws) :
    ∀ i, some i ∈ ws → i < s.heap.length := by
  intro i hi
  obtain ⟨hl, hg⟩ := macroArgs_get args h
  obtain ⟨k, hk⟩ := List.getElem?_of_mem hi
  have hk1 : k < args.length := by rw [← hl]; exact (List.getElem?_eq_some_iff.1 hk).1
  obtain ⟨_, x, h1, h2⟩ := hg k args[k] (List.getElem?_eq_getElem hk1)
  rw [hk] at h2
  injection h2 with h2
  exact hs.ptr i (h2 ▸ List.mem_of_getElem? h1)

/-- In a macro the words are its arguments. -/
theorem macroRun_com {call : Text → List Int → TSt → Outcome TSt} (hcall : ∀ n m args, Com1 X [] n (call m args)) (body : List Instr)
    (ws : List (Option Nat)) (s : TSt) (hs : Good n s) (hw : ∀ i, some i ∈ ws → i < s.heap.length) :
    ((execMacroBody (virt env) call body { lift X Y s with word := ws }).map fun s' => { s' with word := (lift X Y s).word }) =
      ((execMacroBody (virt env) call body { s with word := ws }).map fun s' => { s' with word := s.word }).map (lift X Y) ∧
    ∀ s', ((execMacroBody (virt env) call body { s with word := ws }).map fun s' => { s' with word := s.word }) = .ok s' → 
      s'.heap.length = s.heap.length → Good n s' := by
  have hg : Good ws.length { s with word := ws } := ⟨rfl, hw⟩
  obtain ⟨h1, h2⟩ := execMacroBody_com (X := X) (Y := []) (n := ws.length) env call (fun m args _ => hcall _ m args) rfl body _ hg
  have e : ({ lift X Y s with word := ws } : TSt) = lift X [] { s with word := ws } := by simp [lift]
  rw [e, h1]
  cases hx : execMacroBody (virt env) call body { s with word := ws } with
  | ok s1 => exact ⟨rfl, fun s' h hlen => by cases h; exact ⟨hs.len, fun i hi => by dsimp only at hlen ⊢; rw [hlen]; exact hs.ptr i hi⟩⟩
  | fail => exact ⟨rfl, fun p h => by cases h⟩
  | diverge => exact ⟨rfl, fun p h => by cases h⟩
  | ub => exact ⟨rfl, fun p h => by cases h⟩

theorem callMacro_com (d : Nat) : ∀ (Y : List (Option Nat)) (n : Nat) (m : Text) (args : List Int), (Y = [] ∨ ∀ p ∈ args, p ≤ (n : Int)) →
    Com1 X Y n (callMacro env d m args) := by
  induction d with
  | zero => intro Y n m args _; exact Com1.bad (Or.inr (Or.inr rfl))
  | succ d ih =>
    intro Y n m args h s hs
    have hfix := fun s' (hc : callMacro env (d + 1) m args s = .ok s') => ((words_closed env (d + 1)).call hc).2
    have hrun := fun ws => macroRun_com (X := X) (Y := Y) (n := n) env (call := callMacro env d) (fun n m args => ih [] n m args (Or.inl rfl)) (env.macros m).2 ws s hs
    have ha : ∀ as : List Int, (∀ p ∈ as, p ∈ args) → macroArgs (lift X Y s).word as = macroArgs s.word as := fun as has =>
      macroArgs_append s.word as (h.imp id (fun h p hp => by rw [hs.len]; exact h p (has p hp)))
    have key : callMacro env (d + 1) m args (lift X Y s) = (callMacro env (d + 1) m args s).map (lift X Y) ∧
        ∀ s', callMacro env (d + 1) m args s = .ok s' → s'.heap.length = s.heap.length → Good n s' := by
      simp only [callMacro]
      by_cases h0 : (env.macros m).1 = 0
      · simp only [if_pos h0]
        exact hrun [] (by simp)
      · simp only [if_neg h0]
        by_cases h1 : args.length > (env.macros m).1
        · simp only [if_pos h1]
          rw [ha _ (fun p hp => List.mem_of_mem_take hp)]
          cases macroArgs s.word (args.take (env.macros m).1) with
          | none => exact ⟨rfl, fun p h => by cases h⟩
          | some x => exact ⟨rfl, fun p h _ => by cases h; exact hs⟩
        · simp only [if_neg h1]
          rw [ha _ (fun _ hp => hp)]
          cases hx : macroArgs s.word args with
          | none => exact ⟨rfl, fun p h => by cases h⟩
          | some ws =>
            exact hrun (ws ++ List.replicate ((env.macros m).1 - args.length) none) (fun i hi => by
              rcases List.mem_append.1 hi with hi | hi
              · exact macroArgs_ptr hs hx i hi
              · exact absurd (List.eq_of_mem_replicate hi) (by simp))
    exact ⟨key.1, fun s' hc => key.2 s' hc (hfix s' hc)⟩

/-- **C74, words.** A rule whose positions are those of its words does the same whatever other words there are after them. -/
theorem processRule_com (d : Nat) (action : List Instr) (h1 : 1 ≤ n) (h : Instr.withinL n action) : Com X Y n (processRule env d action) := by
  have h2 := execBlock_com (X := X) (Y := Y) (n := n) env (callMacro env d) (fun m args h => callMacro_com env d Y n m args h) (Or.inr h1) action (-1) (Or.inr h)
  intro s hs
  obtain ⟨h3, h4⟩ := h2 s hs
  simp only [processRule]
  rw [h3]
  cases hx : execBlock (virt env) (callMacro env d) action (-1) s with
  | ok p => exact ⟨rfl, fun q h => by cases h; exact ⟨(h4 p hx).len, (h4 p hx).ptr⟩⟩
  | fail => exact ⟨rfl, fun p h => by cases h⟩
  | diverge => exact ⟨rfl, fun p h => by cases h⟩
  | ub => exact ⟨rfl, fun p h => by cases h⟩

end Verif.Whole
