import Verif.Inter.Model
import Verif.Whole.Mono
import Verif.Whole.Local
/-!
# C75: a rule of apertium-interchunk does not see the words after those it matches, and does not change what is inside the chunks
-/
namespace Verif.Inter
open Verif.Transfer

/-! ## What a rule leaves as it is -/

/-- The pointers, what is in braces, and (outside `<out>`) `in_out` are as before; what has been written stays. -/
structure Frame (s s' : ISt) : Prop where
  word : s'.word = s.word
  inside : s'.heap.map (fun w => (w.queue, w.wb)) = s.heap.map (fun w => (w.queue, w.wb))
  inOut : s.inOut = false → s'.inOut = false
  out : s.out <+: s'.out

theorem Frame.refl (s : ISt) : Frame s s := ⟨rfl, rfl, id, List.prefix_refl _⟩
theorem Frame.trans {a b c : ISt} (h : Frame a b) (h' : Frame b c) : Frame a c :=
  ⟨h'.word.trans h.word, h'.inside.trans h.inside, fun x => h'.inOut (h.inOut x), h.out.trans h'.out⟩
theorem Frame.length {s s' : ISt} (h : Frame s s') : s'.heap.length = s.heap.length := by simpa using congrArg List.length h.inside

/-- An expression changes nothing but the queue of blanks. -/
structure Still (s s' : ISt) : Prop where
  heap : s'.heap = s.heap
  word : s'.word = s.word
  vars : s'.vars = s.vars
  inOut : s'.inOut = s.inOut
  out : s'.out = s.out

theorem Still.refl (s : ISt) : Still s s := ⟨rfl, rfl, rfl, rfl, rfl⟩
theorem Still.trans {a b c : ISt} (h : Still a b) (h' : Still b c) : Still a c :=
  ⟨h'.heap.trans h.heap, h'.word.trans h.word, h'.vars.trans h.vars, h'.inOut.trans h.inOut, h'.out.trans h.out⟩
theorem Still.frame {s s' : ISt} (h : Still s s') : Frame s s' := ⟨h.word, by rw [h.heap], fun x => h.inOut.trans x, by rw [h.out]; exact List.prefix_refl _⟩

variable (env : TEnv)

theorem evalSimple_still {e : Simple} {s s' : ISt} {t : Text} (h : evalSimple env e s = .ok (t, s')) : Still s s' := by
  cases e with
  | clip pos sd part q lt =>
    simp only [evalSimple] at h
    obtain ⟨o, _, h⟩ := ok_bind_eq h
    rcases o with _ | ⟨i, w⟩
    · cases h; exact Still.refl _
    · obtain ⟨_, _, h⟩ := ok_map_eq h; cases h; exact Still.refl _
  | lit v => simp only [evalSimple] at h; cases h; exact Still.refl _
  | var n => simp only [evalSimple] at h; cases h; exact Still.refl _

mutual
theorem evalExpr_still : (e : Expr) → ∀ {s s' : ISt} {t : Text}, evalExpr env e s = .ok (t, s') → Still s s'
  | .simple e, _, _, _, h => by simp only [evalExpr] at h; exact evalSimple_still env h
  | .litTag v, _, _, _, h => by simp only [evalExpr] at h; cases h; exact Still.refl _
  | .blank, s, s', t, h => by
    simp only [evalExpr] at h
    split at h
    · cases h; exact Still.refl _
    · cases h; split <;> exact ⟨rfl, rfl, rfl, rfl, rfl⟩
  | .getCaseFrom pos e, _, _, _, h => by
    simp only [evalExpr] at h
    obtain ⟨o, _, h⟩ := ok_bind_eq h
    rcases o with _ | ⟨i, w⟩
    · cases h; exact Still.refl _
    · obtain ⟨⟨d, s1⟩, h1, h⟩ := ok_map_eq h; cases h; exact evalSimple_still env h1
  | .luCount, _, _, _, h => by simp only [evalExpr] at h; cases h
  | .caseOf pos sd part, _, _, _, h => by
    simp only [evalExpr] at h
    obtain ⟨o, _, h⟩ := ok_bind_eq h
    rcases o with _ | ⟨i, w⟩ <;> (cases h; exact Still.refl _)
  | .concat es, _, _, _, h => by simp only [evalExpr] at h; exact evalList_still es h
  | .lu es, _, _, _, h => by simp only [evalExpr] at h; cases h
  | .mlu ls, _, _, _, h => by simp only [evalExpr] at h; cases h
  | .chunk a b c items, _, _, _, h => by
    simp only [evalExpr] at h
    obtain ⟨⟨d, s1⟩, h1, h⟩ := ok_map_eq h; cases h; exact evalList_still items h1
  | .tags ts, _, _, _, h => by simp only [evalExpr] at h; cases h
  | .unknown, _, _, _, h => by simp only [evalExpr] at h; cases h
theorem evalList_still : (es : List Expr) → ∀ {s s' : ISt} {t : Text}, evalList env es s = .ok (t, s') → Still s s'
  | [], _, _, _, h => by simp only [evalList] at h; cases h; exact Still.refl _
  | e :: es, _, _, _, h => by
    simp only [evalList] at h
    obtain ⟨⟨t1, s1⟩, h1, h⟩ := ok_bind_eq h
    obtain ⟨⟨t2, s2⟩, h2, h⟩ := ok_map_eq h
    cases h
    exact (evalExpr_still e h1).trans (evalList_still es h2)
end

theorem outLoop_frame (es : List Expr) {s s' : ISt} (h : outLoop env es s = .ok s') : Frame s s' := by
  induction es generalizing s with
  | nil => simp only [outLoop] at h; cases h; exact Frame.refl _
  | cons e es ih =>
    simp only [outLoop] at h
    obtain ⟨⟨t, s1⟩, h1, h⟩ := ok_bind_eq h
    have F := (evalExpr_still env e h1).frame
    have G := ih h
    exact ⟨G.word.trans F.word, G.inside.trans F.inside, fun x => G.inOut (F.inOut x), F.out.trans ((List.prefix_append _ t).trans G.out)⟩

theorem processOut_frame (es : List Expr) {s s' : ISt} (h : processOut env es s = .ok s') : Frame s s' := by
  unfold processOut at h
  obtain ⟨s1, h1, rfl⟩ := ok_map_eq h
  have F := outLoop_frame env es h1
  exact ⟨F.word, F.inside, fun _ => rfl, F.out⟩

theorem processAppend_frame (n : Text) (es : List Expr) {s s' : ISt} (h : processAppend env n es s = .ok s') : Frame s s' := by
  induction es generalizing s with
  | nil => simp only [processAppend] at h; cases h; exact Frame.refl _
  | cons e es ih =>
    simp only [processAppend] at h
    obtain ⟨⟨t, s1⟩, h1, h⟩ := ok_bind_eq h
    have F := (evalExpr_still env e h1).frame
    have G := ih h
    exact ⟨G.word.trans F.word, G.inside.trans F.inside, fun x => G.inOut (F.inOut x), F.out.trans G.out⟩

theorem wordRaw_some {s : ISt} {pos : Int} {i : Nat} {w : IWord} (h : s.wordRaw pos = .ok (i, w)) :
    0 ≤ pos ∧ s.word[pos.toNat]? = some (some i) ∧ s.heap[i]? = some w := by
  unfold ISt.wordRaw at h
  split at h
  · cases h
  · rename_i h0
    split at h
    · rename_i j hj
      split at h
      · rename_i w' hw
        cases h
        exact ⟨by omega, hj, hw⟩
      · cases h
    · cases h

/-- A word is changed, but not what it has in braces. -/
theorem set_frame {s s1 : ISt} (F : Still s s1) {i : Nat} {w : IWord} (hi : s.heap[i]? = some w) (re : Re) (t : Text) :
    Frame s { s1 with heap := s1.heap.set i (w.setChunkPart re t) } := by
  refine ⟨F.word, ?_, fun x => F.inOut.trans x, by rw [F.out]; exact List.prefix_refl _⟩
  dsimp only
  rw [F.heap, List.map_set]
  apply List.ext_getElem?
  intro j
  by_cases hj : j = i
  · subst hj
    rw [List.getElem?_set_self (by rw [List.length_map]; exact (List.getElem?_eq_some_iff.1 hi).1), List.getElem?_map, hi]
    rfl
  · rw [List.getElem?_set_ne (Ne.symm hj)]

theorem processLet_frame {l r : Expr} {s s' : ISt} (h : processLet env l r s = .ok s') : Frame s s' := by
  unfold processLet at h
  split at h
  · obtain ⟨⟨t, s1⟩, h1, rfl⟩ := ok_map_eq h
    have F := (evalExpr_still env r h1).frame
    exact ⟨F.word, F.inside, F.inOut, F.out⟩
  · obtain ⟨⟨i, w⟩, h0, h⟩ := ok_bind_eq h
    obtain ⟨⟨t, s1⟩, h1, rfl⟩ := ok_map_eq h
    exact set_frame (evalExpr_still env r h1) (wordRaw_some h0).2.2 _ _
  · cases h; exact Frame.refl _

theorem processModifyCase_frame {l r : Expr} {s s' : ISt} (h : processModifyCase env l r s = .ok s') : Frame s s' := by
  unfold processModifyCase at h
  split at h
  · cases h; exact Frame.refl _
  · split at h
    · obtain ⟨⟨i, w⟩, h0, h⟩ := ok_bind_eq h
      obtain ⟨⟨t, s1⟩, h1, rfl⟩ := ok_map_eq h
      exact set_frame (evalExpr_still env r h1) (wordRaw_some h0).2.2 _ _
    · obtain ⟨⟨t, s1⟩, h1, rfl⟩ := ok_map_eq h
      have F := (evalExpr_still env r h1).frame
      exact ⟨F.word, F.inside, F.inOut, F.out⟩
    · cases h; exact Frame.refl _

theorem frame_closed (d : Nat) : Closed (virt env) (callMacro env d) Frame := by
  induction d with
  | zero =>
    exact {
      refl := Frame.refl
      trans := Frame.trans
      eval := fun h => (evalExpr_still env _ h).frame
      assign := fun h => processLet_frame env h
      append := fun h => processAppend_frame env _ _ h
      out := fun h => processOut_frame env _ h
      modify := fun h => processModifyCase_frame env h
      call := fun h => by cases h }
  | succ d ih =>
    have hbody : ∀ (is : List Instr) {s s' : ISt}, execMacroBody (virt env) (callMacro env d) is s = .ok s' → Frame s s' := by
      intro is
      induction is with
      | nil => intro s s' h; simp only [execMacroBody] at h; cases h; exact Frame.refl _
      | cons i is ih' =>
        intro s s' h
        simp only [execMacroBody] at h
        obtain ⟨⟨w, s1⟩, h1, h⟩ := ok_bind_eq h
        exact (ih.exec i h1).trans (ih' h)
    have hrun : ∀ (n : Text) (s : ISt) (ws : List (Option Nat)) {s' : ISt},
        ((execMacroBody (virt env) (callMacro env d) (env.macros n).2 { s with word := ws }).map fun s' => { s' with word := s.word }) = .ok s' → Frame s s' := by
      intro n s ws s' h
      obtain ⟨s1, h1, rfl⟩ := ok_map_eq h
      have F := hbody _ h1
      exact ⟨rfl, F.inside, F.inOut, F.out⟩
    exact { ih with
      call := fun {n args s s'} h => by
        simp only [callMacro] at h
        split at h
        · exact hrun n s _ h
        · split at h
          · cases h
          · split at h
            · cases h
            · exact hrun n s _ h }

/-- **C75, contents.** Whatever a rule does, macros included, the contents of the chunks (in braces) are not changed. -/
theorem processRule_frame {d : Nat} {action : List Instr} {s s' : ISt} {w : Int} (h : processRule env d action s = .ok (w, s')) : Frame s s' := by
  unfold processRule at h
  obtain ⟨⟨w1, s1⟩, h1, h2⟩ := ok_map_eq h
  cases h2
  have F := (frame_closed env d).block action h1
  exact ⟨F.word, F.inside, F.inOut, F.out.trans (List.prefix_append _ _)⟩

theorem processRule_blanks {d : Nat} {action : List Instr} {s s' : ISt} {w : Int} (h : processRule env d action s = .ok (w, s')) : s'.blanks = [] := by
  unfold processRule at h
  obtain ⟨⟨w1, s1⟩, h1, h2⟩ := ok_map_eq h
  cases h2
  rfl

/-! ## Locality -/

variable (X : List IWord) (Y : List (Option Nat))

/-- The same state with more words. -/
def lift (s : ISt) : ISt := { s with heap := s.heap ++ X, word := s.word ++ Y }

/-- `n` words, all there. -/
structure Good (n : Nat) (s : ISt) : Prop where
  len : s.word.length = n
  ptr : ∀ i, some i ∈ s.word → i < s.heap.length

/-- What `f` does is the same with more words. -/
def Com {α : Type} (n : Nat) (f : ISt → Outcome (α × ISt)) : Prop :=
  ∀ s, Good n s → f (lift X Y s) = (f s).map (fun p => (p.1, lift X Y p.2)) ∧ ∀ p, f s = .ok p → Good n p.2

/-- The same for what gives just a state. -/
def Com1 (n : Nat) (f : ISt → Outcome ISt) : Prop :=
  ∀ s, Good n s → f (lift X Y s) = (f s).map (lift X Y) ∧ ∀ s', f s = .ok s' → Good n s'

variable {X Y} {n : Nat} {α β : Type}

theorem Com.pure (a : α) : Com X Y n (fun s => .ok (a, s)) := fun s hs => ⟨rfl, fun p h => by cases h; exact hs⟩

theorem Com.bad {o : Outcome (α × ISt)} (h : o = .fail ∨ o = .ub ∨ o = .diverge) : Com X Y n (fun _ => o) := fun s _ => by
  rcases h with rfl | rfl | rfl <;> exact ⟨rfl, fun p h => by cases h⟩

theorem Com.bind {f : ISt → Outcome (α × ISt)} {g : α → ISt → Outcome (β × ISt)} (hf : Com X Y n f) (hg : ∀ a, Com X Y n (g a)) :
    Com X Y n (fun s => (f s).bind fun p => g p.1 p.2) := by
  intro s hs
  obtain ⟨h1, h2⟩ := hf s hs
  dsimp only
  rw [h1]
  cases hx : f s with
  | ok p => exact hg p.1 p.2 (h2 p hx)
  | fail => exact ⟨rfl, fun p h => by cases h⟩
  | diverge => exact ⟨rfl, fun p h => by cases h⟩
  | ub => exact ⟨rfl, fun p h => by cases h⟩

theorem Com.map {f : ISt → Outcome (α × ISt)} (hf : Com X Y n f) (g : α → β) : Com X Y n (fun s => (f s).map fun p => (g p.1, p.2)) := by
  intro s hs
  obtain ⟨h1, h2⟩ := hf s hs
  dsimp only
  rw [h1]
  cases hx : f s with
  | ok p => exact ⟨rfl, fun q h => by cases h; exact h2 p hx⟩
  | fail => exact ⟨rfl, fun p h => by cases h⟩
  | diverge => exact ⟨rfl, fun p h => by cases h⟩
  | ub => exact ⟨rfl, fun p h => by cases h⟩

theorem Com.pre {f : ISt → Outcome (α × ISt)} (hf : Com X Y n f) (g : ISt → ISt) (h1 : ∀ s, g (lift X Y s) = lift X Y (g s))
    (h2 : ∀ s, Good n s → Good n (g s)) : Com X Y n (fun s => f (g s)) := by
  intro s hs
  dsimp only
  rw [h1]
  exact hf _ (h2 s hs)

/-- After `f`, the state is changed, in a way that depends on the value. -/
theorem Com.post {f : ISt → Outcome (α × ISt)} (hf : Com X Y n f) (g : α → ISt → ISt) (h1 : ∀ a s, g a (lift X Y s) = lift X Y (g a s))
    (h2 : ∀ a s, Good n s → Good n (g a s)) : Com1 X Y n (fun s => (f s).map fun p => g p.1 p.2) := by
  intro s hs
  obtain ⟨h3, h4⟩ := hf s hs
  dsimp only
  rw [h3]
  cases hx : f s with
  | ok p => exact ⟨congrArg Outcome.ok (h1 _ _), fun q h => by cases h; exact h2 _ _ (h4 p hx)⟩
  | fail => exact ⟨rfl, fun p h => by cases h⟩
  | diverge => exact ⟨rfl, fun p h => by cases h⟩
  | ub => exact ⟨rfl, fun p h => by cases h⟩

theorem Com.bind1 {f : ISt → Outcome (α × ISt)} {g : α → ISt → Outcome ISt} (hf : Com X Y n f) (hg : ∀ a, Com1 X Y n (g a)) :
    Com1 X Y n (fun s => (f s).bind fun p => g p.1 p.2) := by
  intro s hs
  obtain ⟨h1, h2⟩ := hf s hs
  dsimp only
  rw [h1]
  cases hx : f s with
  | ok p => exact hg p.1 p.2 (h2 p hx)
  | fail => exact ⟨rfl, fun p h => by cases h⟩
  | diverge => exact ⟨rfl, fun p h => by cases h⟩
  | ub => exact ⟨rfl, fun p h => by cases h⟩

theorem Com1.pure : Com1 X Y n (fun s => .ok s) := fun s hs => ⟨rfl, fun p h => by cases h; exact hs⟩

theorem Com1.bad {o : Outcome ISt} (h : o = .fail ∨ o = .ub ∨ o = .diverge) : Com1 X Y n (fun _ => o) := fun s _ => by
  rcases h with rfl | rfl | rfl <;> exact ⟨rfl, fun p h => by cases h⟩

theorem Com1.pre {f : ISt → Outcome ISt} (hf : Com1 X Y n f) (g : ISt → ISt) (h1 : ∀ s, g (lift X Y s) = lift X Y (g s))
    (h2 : ∀ s, Good n s → Good n (g s)) : Com1 X Y n (fun s => f (g s)) := by
  intro s hs
  dsimp only
  rw [h1]
  exact hf _ (h2 s hs)

theorem Com1.give {f : ISt → Outcome ISt} (hf : Com1 X Y n f) (a : α) : Com X Y n (fun s => (f s).map fun s' => (a, s')) := by
  intro s hs
  obtain ⟨h1, h2⟩ := hf s hs
  dsimp only
  rw [h1]
  cases hx : f s with
  | ok p => exact ⟨rfl, fun q h => by cases h; exact h2 p hx⟩
  | fail => exact ⟨rfl, fun p h => by cases h⟩
  | diverge => exact ⟨rfl, fun p h => by cases h⟩
  | ub => exact ⟨rfl, fun p h => by cases h⟩

theorem Com1.mapS {f : ISt → Outcome ISt} (hf : Com1 X Y n f) (g : ISt → ISt) (h1 : ∀ s, g (lift X Y s) = lift X Y (g s))
    (h2 : ∀ s, Good n s → Good n (g s)) : Com1 X Y n (fun s => (f s).map g) := by
  intro s hs
  obtain ⟨h3, h4⟩ := hf s hs
  dsimp only
  rw [h3]
  cases hx : f s with
  | ok p => exact ⟨congrArg Outcome.ok (h1 _), fun q h => by cases h; exact h2 _ (h4 p hx)⟩
  | fail => exact ⟨rfl, fun p h => by cases h⟩
  | diverge => exact ⟨rfl, fun p h => by cases h⟩
  | ub => exact ⟨rfl, fun p h => by cases h⟩

/-! ## Words -/

theorem wordAt_lift (s : ISt) (hs : Good n s) (pos : Int) (h : Y = [] ∨ pos < n) : (lift X Y s).wordAt pos = s.wordAt pos := by
  unfold ISt.wordAt lift
  dsimp only
  have hl := hs.len
  by_cases h0 : pos ≥ s.word.length
  · have hy : Y = [] := h.resolve_right (by omega)
    subst hy
    rw [if_pos (by simpa using h0), if_pos h0]
  · rw [if_neg (by simp; omega), if_neg h0]
    by_cases h1 : pos < 0
    · rw [if_pos h1, if_pos h1]
    · rw [if_neg h1, if_neg h1, List.getElem?_append_left (by omega)]
      cases hw : s.word[pos.toNat]? with
      | none => rfl
      | some o =>
        cases o with
        | none => rfl
        | some i =>
          dsimp only
          rw [List.getElem?_append_left (hs.ptr i (List.mem_of_getElem? hw))]

theorem wordRaw_lift (s : ISt) (hs : Good n s) (pos : Int) (h : Y = [] ∨ pos < n) : (lift X Y s).wordRaw pos = s.wordRaw pos := by
  unfold ISt.wordRaw lift
  dsimp only
  have hl := hs.len
  by_cases h1 : pos < 0
  · rw [if_pos h1, if_pos h1]
  · rw [if_neg h1, if_neg h1]
    have e : (s.word ++ Y)[pos.toNat]? = s.word[pos.toNat]? := by
      rcases h with rfl | h
      · rw [List.append_nil]
      · exact List.getElem?_append_left (by omega)
    rw [e]
    cases hw : s.word[pos.toNat]? with
    | none => rfl
    | some o =>
      cases o with
      | none => rfl
      | some i =>
        dsimp only
        rw [List.getElem?_append_left (hs.ptr i (List.mem_of_getElem? hw))]

theorem Com.wordAt (pos : Int) (h : Y = [] ∨ pos < n) (f : Option (Nat × IWord) → ISt → Outcome (α × ISt)) (hf : ∀ o, Com X Y n (f o)) :
    Com X Y n (fun s => (s.wordAt pos).bind fun o => f o s) := by
  intro s hs
  dsimp only
  rw [wordAt_lift s hs pos h]
  cases s.wordAt pos with
  | ok o => exact hf o s hs
  | fail => exact ⟨rfl, fun p h => by cases h⟩
  | diverge => exact ⟨rfl, fun p h => by cases h⟩
  | ub => exact ⟨rfl, fun p h => by cases h⟩

theorem evalSimple_com (e : Simple) (h : Y = [] ∨ e.within n) : Com X Y n (evalSimple env e) := by
  cases e with
  | clip pos sd part q linkTo =>
    have h3 : Y = [] ∨ pos - 1 < n := h.imp id (fun h => by simp only [Simple.within] at h; omega)
    have h4 := Com.wordAt (X := X) (pos - 1) h3 (fun o s => match o with
      | none => Outcome.ok ([], s)
      | some (_, w) => (clipValue env part w).map fun t => (t, s)) (fun o => by
        rcases o with _ | ⟨i, w⟩
        · exact Com.pure _
        · dsimp only
          cases clipValue env part w with
          | ok t => exact Com.pure t
          | fail => exact Com.bad (Or.inl rfl)
          | diverge => exact Com.bad (Or.inr (Or.inr rfl))
          | ub => exact Com.bad (Or.inr (Or.inl rfl)))
    intro s hs
    simp only [evalSimple]
    exact h4 s hs
  | lit v => exact Com.pure _
  | var m => intro s hs; exact ⟨rfl, fun q h => by cases h; exact hs⟩

theorem blank_com : Com X Y n (evalExpr env .blank) := by
  intro s hs
  obtain ⟨heap, word, _, inOut, blanks, _⟩ := s
  simp only [evalExpr, lift]
  cases blanks with
  | nil => exact ⟨rfl, fun q h => by cases h; exact hs⟩
  | cons b bs =>
    cases inOut with
    | true => exact ⟨rfl, fun q h => by cases h; exact ⟨hs.len, hs.ptr⟩⟩
    | false => exact ⟨rfl, fun q h => by cases h; exact hs⟩

/-! ## Expressions -/

theorem Com.seq {f g : ISt → Outcome (Text × ISt)} (hf : Com X Y n f) (hg : Com X Y n g) (k : Text → Text → Text) :
    Com X Y n (fun s => (f s).bind fun (t, s1) => (g s1).map fun (u, s2) => (k t u, s2)) :=
  Com.bind (g := fun t s1 => (g s1).map fun (u, s2) => (k t u, s2)) hf (fun t => hg.map (k t))

mutual
theorem evalExpr_com : (e : Expr) → (Y = [] ∨ e.within n) → Com X Y n (evalExpr env e)
  | .simple e, h => by simp only [evalExpr]; exact evalSimple_com env e h
  | .litTag v, _ => by simp only [evalExpr]; exact Com.pure _
  | .blank, _ => blank_com env
  | .getCaseFrom pos e, h => by
    have h2 := evalSimple_com (X := X) env e (h.imp id (fun h => by simp only [Expr.within] at h; exact h.2))
    have h3 : Y = [] ∨ pos - 1 < n := h.imp id (fun h => by simp only [Expr.within] at h; omega)
    have h4 := Com.wordAt (X := X) (pos - 1) h3 (fun o s => match o with
      | none => Outcome.ok ([], s)
      | some (_, w) => (evalSimple env e s).map fun (d, s') => (env.baseCopycase (w.chunkPart (env.attr t!"lem")) d, s')) (fun o => by
        rcases o with _ | ⟨i, w⟩
        · exact Com.pure _
        · exact h2.map _)
    intro s hs
    simp only [evalExpr]
    exact h4 s hs
  | .luCount, _ => by simp only [evalExpr]; exact Com.bad (Or.inl rfl)
  | .caseOf pos sd part, h => by
    have h3 : Y = [] ∨ pos - 1 < n := h.imp id (fun h => by simp only [Expr.within] at h; omega)
    have h4 := Com.wordAt (X := X) (pos - 1) h3 (fun o s => match o with
      | none => Outcome.ok ([], s)
      | some (_, w) => Outcome.ok (env.getcase (w.chunkPart (env.attr part)), s)) (fun o => by
        rcases o with _ | ⟨i, w⟩
        · exact Com.pure _
        · exact Com.pure _)
    intro s hs
    simp only [evalExpr]
    exact h4 s hs
  | .concat es, h => by
    have h2 := evalList_com es (h.imp id (fun h => by simp only [Expr.within] at h; exact h))
    intro s hs
    simp only [evalExpr]
    exact h2 s hs
  | .lu es, h => by simp only [evalExpr]; exact Com.bad (Or.inl rfl)
  | .mlu ls, h => by simp only [evalExpr]; exact Com.bad (Or.inl rfl)
  | .chunk name namefrom caseVar items, h => by
    have h2 := (evalList_com items (h.imp id (fun h => by simp only [Expr.within] at h; exact h))).map (fun t => '^' :: t ++ ['$'])
    intro s hs
    simp only [evalExpr]
    exact h2 s hs
  | .tags _, _ => by simp only [evalExpr]; exact Com.bad (Or.inl rfl)
  | .unknown, _ => by simp only [evalExpr]; exact Com.bad (Or.inl rfl)
theorem evalList_com : (es : List Expr) → (Y = [] ∨ Expr.withinL n es) → Com X Y n (evalList env es)
  | [], _ => by intro s hs; simp only [evalList]; exact Com.pure _ s hs
  | e :: es, h => by
    have h2 := evalExpr_com e (h.imp id (fun h => by simp only [Expr.withinL] at h; exact h.1))
    have h3 := evalList_com es (h.imp id (fun h => by simp only [Expr.withinL] at h; exact h.2))
    intro s hs
    simp only [evalList]
    exact Com.seq h2 h3 (fun t u => t ++ u) s hs
end

/-! ## Instructions -/

theorem eval2_com (a b : Expr) (h : Y = [] ∨ (a.within n ∧ b.within n)) : Com X Y n (eval2 (virt env) a b) :=
  Com.bind (evalExpr_com env a (h.imp id And.left)) (fun x => (evalExpr_com env b (h.imp id And.right)).map (fun y => (x, y)))

mutual
theorem evalCond_com : (c : Cond) → (Y = [] ∨ c.within n) → Com X Y n (evalCond (virt env) c)
  | .equal cl a b, h => by
    have h2 := (eval2_com (X := X) env a b (h.imp id (fun h => by simpa only [Cond.within] using h))).map
      (fun p => decide ((virt env).fold cl p.1 = (virt env).fold cl p.2))
    intro s hs; simp only [evalCond]; exact h2 s hs
  | .beginsWith cl a b, h => by
    have h2 := (eval2_com (X := X) env a b (h.imp id (fun h => by simpa only [Cond.within] using h))).map
      (fun p => beginsWith ((virt env).fold cl p.1) ((virt env).fold cl p.2))
    intro s hs; simp only [evalCond]; exact h2 s hs
  | .endsWith cl a b, h => by
    have h2 := (eval2_com (X := X) env a b (h.imp id (fun h => by simpa only [Cond.within] using h))).map
      (fun p => endsWith ((virt env).fold cl p.1) ((virt env).fold cl p.2))
    intro s hs; simp only [evalCond]; exact h2 s hs
  | .containsSubstring cl a b, h => by
    have h2 := (eval2_com (X := X) env a b (h.imp id (fun h => by simpa only [Cond.within] using h))).map
      (fun p => contains ((virt env).fold cl p.1) ((virt env).fold cl p.2))
    intro s hs; simp only [evalCond]; exact h2 s hs
  | .beginsWithList cl a l, h => by
    have h2 := (evalExpr_com (X := X) env a (h.imp id (fun h => by simpa only [Cond.within] using h))).map
      (fun x => ((virt env).pickList cl l).any (beginsWith ((virt env).fold cl x)))
    intro s hs; simp only [evalCond]; exact h2 s hs
  | .endsWithList cl a l, h => by
    have h2 := (evalExpr_com (X := X) env a (h.imp id (fun h => by simpa only [Cond.within] using h))).map
      (fun x => ((virt env).pickList cl l).any (endsWith ((virt env).fold cl x)))
    intro s hs; simp only [evalCond]; exact h2 s hs
  | .isIn cl a l, h => by
    have h2 := (evalExpr_com (X := X) env a (h.imp id (fun h => by simpa only [Cond.within] using h))).map
      (fun x => decide ((virt env).fold cl x ∈ (virt env).pickList cl l))
    intro s hs; simp only [evalCond]; exact h2 s hs
  | .and cs, h => by
    have h2 := evalAnd_com cs (h.imp id (fun h => by simpa only [Cond.within] using h))
    intro s hs; simp only [evalCond]; exact h2 s hs
  | .or cs, h => by
    have h2 := evalOr_com cs (h.imp id (fun h => by simpa only [Cond.within] using h))
    intro s hs; simp only [evalCond]; exact h2 s hs
  | .not cs, h => by
    have h2 := evalNot_com cs (h.imp id (fun h => by simpa only [Cond.within] using h))
    intro s hs; simp only [evalCond]; exact h2 s hs
  | .unknown, _ => by intro s hs; simp only [evalCond]; exact Com.pure _ s hs
theorem evalAnd_com : (cs : List Cond) → (Y = [] ∨ Cond.withinL n cs) → Com X Y n (evalAnd (virt env) cs)
  | [], _ => by intro s hs; simp only [evalAnd]; exact Com.pure _ s hs
  | c :: cs, h => by
    have h2 := evalCond_com c (h.imp id (fun h => by simp only [Cond.withinL] at h; exact h.1))
    have h3 := evalAnd_com cs (h.imp id (fun h => by simp only [Cond.withinL] at h; exact h.2))
    have h4 := Com.bind h2 (g := fun b s' => if b then evalAnd (virt env) cs s' else .ok (false, s')) (fun b => by
      cases b
      · exact Com.pure _
      · exact h3)
    intro s hs; simp only [evalAnd]; exact h4 s hs
theorem evalOr_com : (cs : List Cond) → (Y = [] ∨ Cond.withinL n cs) → Com X Y n (evalOr (virt env) cs)
  | [], _ => by intro s hs; simp only [evalOr]; exact Com.pure _ s hs
  | c :: cs, h => by
    have h2 := evalCond_com c (h.imp id (fun h => by simp only [Cond.withinL] at h; exact h.1))
    have h3 := evalOr_com cs (h.imp id (fun h => by simp only [Cond.withinL] at h; exact h.2))
    have h4 := Com.bind h2 (g := fun b s' => if b then .ok (true, s') else evalOr (virt env) cs s') (fun b => by
      cases b
      · exact h3
      · exact Com.pure _)
    intro s hs; simp only [evalOr]; exact h4 s hs
theorem evalNot_com : (cs : List Cond) → (Y = [] ∨ Cond.withinL n cs) → Com X Y n (evalNot (virt env) cs)
  | [], _ => by intro s hs; simp only [evalNot]; exact Com.pure _ s hs
  | c :: cs, h => by
    have h2 := (evalCond_com c (h.imp id (fun h => by simp only [Cond.withinL] at h; exact h.1))).map (fun b => !b)
    intro s hs; simp only [evalNot]; exact h2 s hs
end

theorem evalTest_com (cs : List Cond) (h : Y = [] ∨ Cond.withinL n cs) : Com X Y n (evalTest (virt env) cs) := by
  cases cs with
  | nil => exact Com.pure _
  | cons c cs => exact evalCond_com env c (h.imp id (fun h => by simp only [Cond.withinL] at h; exact h.1))

theorem outLoop_com (es : List Expr) (h : Y = [] ∨ Expr.withinL n es) : Com1 X Y n (outLoop env es) := by
  induction es with
  | nil => exact Com1.pure
  | cons e es ih =>
    exact Com.bind1 (evalExpr_com env e (h.imp id (fun h => by simp only [Expr.withinL] at h; exact h.1)))
      (g := fun t s' => outLoop env es { s' with out := s'.out ++ t })
      (fun t => (ih (h.imp id (fun h => by simp only [Expr.withinL] at h; exact h.2))).pre (fun s' => { s' with out := s'.out ++ t }) (fun _ => rfl)
        (fun _ hs => ⟨hs.len, hs.ptr⟩))

theorem processOut_com (es : List Expr) (h : Y = [] ∨ Expr.withinL n es) : Com1 X Y n (processOut env es) :=
  ((outLoop_com env es h).pre (fun s => { s with inOut := true }) (fun _ => rfl) (fun _ hs => ⟨hs.len, hs.ptr⟩)).mapS
    (fun s => { s with inOut := false }) (fun _ => rfl) (fun _ hs => ⟨hs.len, hs.ptr⟩)

theorem processAppend_com (m : Text) (es : List Expr) (h : Y = [] ∨ Expr.withinL n es) : Com1 X Y n (processAppend env m es) := by
  induction es with
  | nil => exact Com1.pure
  | cons e es ih =>
    exact Com.bind1 (evalExpr_com env e (h.imp id (fun h => by simp only [Expr.withinL] at h; exact h.1)))
      (g := fun t s' => processAppend env m es { s' with vars := upd s'.vars m (s'.vars m ++ t) })
      (fun t => (ih (h.imp id (fun h => by simp only [Expr.withinL] at h; exact h.2))).pre
        (fun s' => { s' with vars := upd s'.vars m (s'.vars m ++ t) }) (fun _ => rfl) (fun _ hs => ⟨hs.len, hs.ptr⟩))

/-- The value is computed, then a word is changed with it. -/
theorem writeWord_com (r : Expr) (hr : Y = [] ∨ r.within n) (i : Nat) (f : Text → IWord) (s : ISt) (hs : Good n s) (hi : i < s.heap.length) :
    ((evalExpr env r (lift X Y s)).map fun (t, s') => { s' with heap := s'.heap.set i (f t) }) =
    ((evalExpr env r s).map fun (t, s') => { s' with heap := s'.heap.set i (f t) }).map (lift X Y) ∧
    ∀ s', ((evalExpr env r s).map fun (t, s') => { s' with heap := s'.heap.set i (f t) }) = .ok s' → Good n s' := by
  obtain ⟨h2, h3⟩ := evalExpr_com (X := X) env r hr s hs
  rw [h2]
  cases hx : evalExpr env r s with
  | ok p =>
    obtain ⟨t, s1⟩ := p
    have F := evalExpr_still env r hx
    have hg := h3 _ hx
    refine ⟨?_, fun s' h => by cases h; exact ⟨hg.len, fun j hj => by simpa using hg.ptr j hj⟩⟩
    simp only [Outcome.map_ok, lift]
    rw [List.set_append_left _ _ (by rw [F.heap]; exact hi)]
  | fail => exact ⟨rfl, fun p h => by cases h⟩
  | diverge => exact ⟨rfl, fun p h => by cases h⟩
  | ub => exact ⟨rfl, fun p h => by cases h⟩

theorem wordRaw_lt {s : ISt} {pos : Int} {i : Nat} {w : IWord} (h : s.wordRaw pos = .ok (i, w)) : i < s.heap.length :=
  (List.getElem?_eq_some_iff.1 (wordRaw_some h).2.2).1

theorem processLet_com (l r : Expr) (h : Y = [] ∨ (l.within n ∧ r.within n)) : Com1 X Y n (processLet env l r) := by
  have hr := h.imp id And.right
  cases l with
  | simple e =>
    cases e with
    | lit v => exact Com1.pure
    | var m =>
      exact Com.post (evalExpr_com (X := X) env r hr) (fun t s' => { s' with vars := upd s'.vars m t }) (fun _ _ => rfl) (fun _ _ hs => ⟨hs.len, hs.ptr⟩)
    | clip pos sd part q lt =>
      intro s hs
      have hp : Y = [] ∨ pos - 1 < n := h.imp id (fun h => by have := h.1; simp only [Expr.within, Simple.within] at this; omega)
      simp only [processLet]
      rw [wordRaw_lift s hs _ hp]
      cases hw : s.wordRaw (pos - 1) with
      | ok iw =>
        obtain ⟨i, w⟩ := iw
        exact writeWord_com env r hr i (fun t => w.setChunkPart (env.attr part) t) s hs (wordRaw_lt hw)
      | fail => exact ⟨rfl, fun p h => by cases h⟩
      | diverge => exact ⟨rfl, fun p h => by cases h⟩
      | ub => exact ⟨rfl, fun p h => by cases h⟩
  | _ => exact Com1.pure

theorem processModifyCase_com (l r : Expr) (h : Y = [] ∨ (l.within n ∧ r.within n)) : Com1 X Y n (processModifyCase env l r) := by
  have hr := h.imp id And.right
  intro s hs
  unfold processModifyCase
  by_cases hd : env.dictCase
  · simp only [if_pos hd]
    exact Com1.pure s hs
  · simp only [if_neg hd]
    cases l with
    | simple e =>
      cases e with
      | lit v => exact Com1.pure s hs
      | var m =>
        exact Com.post (evalExpr_com (X := X) env r hr)
          (fun t s' => { s' with vars := upd s'.vars m (env.copycase t (s'.vars m)) }) (fun _ _ => rfl) (fun _ _ hs => ⟨hs.len, hs.ptr⟩) s hs
      | clip pos sd part q lt =>
        have hp : Y = [] ∨ pos - 1 < n := h.imp id (fun h => by have := h.1; simp only [Expr.within, Simple.within] at this; omega)
        dsimp only
        rw [wordRaw_lift s hs _ hp]
        cases hw : s.wordRaw (pos - 1) with
        | ok iw =>
          obtain ⟨i, w⟩ := iw
          exact writeWord_com env r hr i (fun t => w.setChunkPart (env.attr part) (env.copycase t (w.chunkPart (env.attr part)))) s hs (wordRaw_lt hw)
        | fail => exact ⟨rfl, fun p h => by cases h⟩
        | diverge => exact ⟨rfl, fun p h => by cases h⟩
        | ub => exact ⟨rfl, fun p h => by cases h⟩
    | _ => exact Com1.pure s hs

section
variable (call : Text → List Int → ISt → Outcome ISt) (hcall : ∀ m args, (Y = [] ∨ ∀ p ∈ args, p ≤ (n : Int)) → Com1 X Y n (call m args))
include hcall

mutual
theorem exec_com : (i : Instr) → (Y = [] ∨ i.within n) → Com X Y n (exec (virt env) call i)
  | .choose opts, h => by
    have h2 := execChoose_com opts (-1) (h.imp id (fun h => by simpa only [Instr.within] using h))
    intro s hs; simp only [exec]; exact h2 s hs
  | .assign l r, h => by
    have h2 := (processLet_com (X := X) env l r (h.imp id (fun h => by simpa only [Instr.within] using h))).give (-1 : Int)
    intro s hs; simp only [exec]; exact h2 s hs
  | .append m es, h => by
    have h2 := (processAppend_com (X := X) env m es (h.imp id (fun h => by simpa only [Instr.within] using h))).give (-1 : Int)
    intro s hs; simp only [exec]; exact h2 s hs
  | .out es, h => by
    have h2 := (processOut_com (X := X) env es (h.imp id (fun h => by simpa only [Instr.within] using h))).give (-1 : Int)
    intro s hs; simp only [exec]; exact h2 s hs
  | .callMacro m args, h => by
    have h2 := (hcall m args (h.imp id (fun h => by simpa only [Instr.within] using h))).give (-1 : Int)
    intro s hs; simp only [exec]; exact h2 s hs
  | .modifyCase l r, h => by
    have h2 := (processModifyCase_com (X := X) env l r (h.imp id (fun h => by simpa only [Instr.within] using h))).give (-1 : Int)
    intro s hs; simp only [exec]; exact h2 s hs
  | .reject sh, _ => by intro s hs; simp only [exec]; exact Com.pure _ s hs
  | .unknown, _ => by intro s hs; simp only [exec]; exact Com.pure _ s hs
theorem execChoose_com : (os : List Opt) → (wtc : Int) → (Y = [] ∨ Opt.withinL n os) → Com X Y n (execChoose (virt env) call os wtc)
  | [], _, _ => by intro s hs; simp only [execChoose]; exact Com.pure _ s hs
  | .when items :: os, wtc, h => by
    have h2 := execWhen_com items false wtc (h.imp id (fun h => by simp only [Opt.withinL, Opt.within] at h; exact h.1))
    have h3 := fun w => execChoose_com os w (h.imp id (fun h => by simp only [Opt.withinL] at h; exact h.2))
    intro s hs
    simp only [execChoose]
    obtain ⟨h4, h5⟩ := h2 s hs
    rw [h4]
    cases hx : execWhen (virt env) call items false wtc s with
    | ok p =>
      obtain ⟨b, w, s'⟩ := p
      have hg := h5 _ hx
      show (if w ≠ -1 ∨ b = true then Outcome.ok (w, lift X Y s') else _) = (if w ≠ -1 ∨ b = true then _ else _ : Outcome _).map _ ∧
        ∀ q, (if w ≠ -1 ∨ b = true then _ else _ : Outcome _) = _ → _
      by_cases hb : w ≠ -1 ∨ b = true
      · simp only [if_pos hb]
        exact Com.pure w s' hg
      · simp only [if_neg hb]
        exact h3 w s' hg
    | fail => exact ⟨rfl, fun p h => by cases h⟩
    | diverge => exact ⟨rfl, fun p h => by cases h⟩
    | ub => exact ⟨rfl, fun p h => by cases h⟩
  | .otherwise body :: os, wtc, h => by
    have h2 := execBlock_com body wtc (h.imp id (fun h => by simp only [Opt.withinL, Opt.within] at h; exact h.1))
    have h3 := fun w => execChoose_com os w (h.imp id (fun h => by simp only [Opt.withinL] at h; exact h.2))
    have h4 := Com.bind h2 (g := fun w s' => if w ≠ -1 then .ok (w, s') else execChoose (virt env) call os w s') (fun w => by
      by_cases hw : w ≠ -1
      · simp only [if_pos hw]; exact Com.pure _
      · simp only [if_neg hw]; exact h3 w)
    intro s hs; simp only [execChoose]; exact h4 s hs
  | .unknown :: os, wtc, h => by
    have h3 := execChoose_com os wtc (h.imp id (fun h => by simp only [Opt.withinL] at h; exact h.2))
    intro s hs; simp only [execChoose]; exact h3 s hs
theorem execWhen_com : (is : List WhenItem) → (b : Bool) → (wtc : Int) → (Y = [] ∨ WhenItem.withinL n is) → ∀ s, Good n s →
    execWhen (virt env) call is b wtc (lift X Y s) = (execWhen (virt env) call is b wtc s).map (fun p => (p.1, p.2.1, lift X Y p.2.2)) ∧
    ∀ p, execWhen (virt env) call is b wtc s = .ok p → Good n p.2.2
  | [], b, wtc, _ => by intro s hs; simp only [execWhen]; exact ⟨rfl, fun p h => by cases h; exact hs⟩
  | .test cs :: is, b, wtc, h => by
    have h2 := evalTest_com (X := X) env cs (h.imp id (fun h => by simp only [WhenItem.withinL, WhenItem.within] at h; exact h.1))
    have h3 := execWhen_com is true wtc (h.imp id (fun h => by simp only [WhenItem.withinL] at h; exact h.2))
    intro s hs
    simp only [execWhen]
    obtain ⟨h4, h5⟩ := h2 s hs
    rw [h4]
    cases hx : evalTest (virt env) cs s with
    | ok p =>
      obtain ⟨c, s'⟩ := p
      have hg := h5 _ hx
      cases c with
      | true => exact h3 s' hg
      | false => exact ⟨rfl, fun p h => by cases h; exact hg⟩
    | fail => exact ⟨rfl, fun p h => by cases h⟩
    | diverge => exact ⟨rfl, fun p h => by cases h⟩
    | ub => exact ⟨rfl, fun p h => by cases h⟩
  | .instr i :: is, b, wtc, h => by
    have h2 := exec_com i (h.imp id (fun h => by simp only [WhenItem.withinL, WhenItem.within] at h; exact h.1))
    have h3 := fun w => execWhen_com is b w (h.imp id (fun h => by simp only [WhenItem.withinL] at h; exact h.2))
    intro s hs
    simp only [execWhen]
    obtain ⟨h4, h5⟩ := h2 s hs
    rw [h4]
    cases hx : exec (virt env) call i s with
    | ok p =>
      obtain ⟨w, s'⟩ := p
      have hg := h5 _ hx
      show (if w ≠ -1 then Outcome.ok (b, w, lift X Y s') else _) = (if w ≠ -1 then _ else _ : Outcome _).map _ ∧
        ∀ q, (if w ≠ -1 then _ else _ : Outcome _) = _ → _
      by_cases hw : w ≠ -1
      · simp only [if_pos hw]
        exact ⟨rfl, fun p h => by cases h; exact hg⟩
      · simp only [if_neg hw]
        exact h3 w s' hg
    | fail => exact ⟨rfl, fun p h => by cases h⟩
    | diverge => exact ⟨rfl, fun p h => by cases h⟩
    | ub => exact ⟨rfl, fun p h => by cases h⟩
theorem execBlock_com : (is : List Instr) → (wtc : Int) → (Y = [] ∨ Instr.withinL n is) → Com X Y n (execBlock (virt env) call is wtc)
  | [], wtc, _ => by intro s hs; simp only [execBlock]; exact Com.pure _ s hs
  | i :: is, wtc, h => by
    have h2 := exec_com i (h.imp id (fun h => by simp only [Instr.withinL] at h; exact h.1))
    have h3 := fun w => execBlock_com is w (h.imp id (fun h => by simp only [Instr.withinL] at h; exact h.2))
    have h4 := Com.bind h2 (g := fun w s' => if w ≠ -1 then .ok (w, s') else execBlock (virt env) call is w s') (fun w => by
      by_cases hw : w ≠ -1
      · simp only [if_pos hw]; exact Com.pure _
      · simp only [if_neg hw]; exact h3 w)
    intro s hs; simp only [execBlock]; exact h4 s hs
end

theorem execMacroBody_com (hy : Y = []) (is : List Instr) : Com1 X Y n (execMacroBody (virt env) call is) := by
  induction is with
  | nil => exact Com1.pure
  | cons i is ih => exact Com.bind1 (exec_com env call hcall i (Or.inl hy)) (g := fun _ s' => execMacroBody (virt env) call is s') (fun _ => ih)
end

/-! ## Macros -/

theorem macroArgs_append (word : List (Option Nat)) (args : List Int) (h : Y = [] ∨ ∀ p ∈ args, p ≤ (word.length : Int)) :
    macroArgs (word ++ Y) args = macroArgs word args := by
  rcases h with rfl | h
  · rw [List.append_nil]
  · induction args with
    | nil => rfl
    | cons p ps ih =>
      have hp := h p (by simp)
      simp only [macroArgs]
      rw [ih (fun q hq => h q (by simp [hq]))]
      by_cases h0 : p - 1 < 0
      · rw [if_pos h0, if_pos h0]
      · rw [if_neg h0, if_neg h0, List.getElem?_append_left (by omega)]

theorem macroArgs_mem {word : List (Option Nat)} {args : List Int} {ws : List (Option Nat)} (h : macroArgs word args = some ws) : ∀ o ∈ ws, o ∈ word := by
  induction args generalizing ws with
  | nil => cases h; simp
  | cons p ps ih =>
    simp only [macroArgs] at h
    split at h
    · cases h
    · split at h
      · rename_i i xs hi hxs
        cases h
        intro o ho
        rcases List.mem_cons.1 ho with rfl | ho
        · exact List.mem_of_getElem? hi
        · exact ih hxs o ho
      · cases h

/-- In a macro the words are its arguments. -/
theorem macroRun_com {call : Text → List Int → ISt → Outcome ISt} (hcall : ∀ n m args, Com1 X [] n (call m args)) (body : List Instr)
    (ws : List (Option Nat)) (s : ISt) (hs : Good n s) (hw : ∀ i, some i ∈ ws → i < s.heap.length) :
    ((execMacroBody (virt env) call body { lift X Y s with word := ws }).map fun s' => { s' with word := (lift X Y s).word }) =
      ((execMacroBody (virt env) call body { s with word := ws }).map fun s' => { s' with word := s.word }).map (lift X Y) ∧
    ∀ s', ((execMacroBody (virt env) call body { s with word := ws }).map fun s' => { s' with word := s.word }) = .ok s' →
      s'.heap.length = s.heap.length → Good n s' := by
  have hg : Good ws.length { s with word := ws } := ⟨rfl, hw⟩
  obtain ⟨h1, h2⟩ := execMacroBody_com (X := X) (Y := []) (n := ws.length) env call (fun m args _ => hcall _ m args) rfl body _ hg
  have e : ({ lift X Y s with word := ws } : ISt) = lift X [] { s with word := ws } := by simp [lift]
  rw [e, h1]
  cases hx : execMacroBody (virt env) call body { s with word := ws } with
  | ok s1 => exact ⟨rfl, fun s' h hlen => by cases h; exact ⟨hs.len, fun i hi => by dsimp only at hlen ⊢; rw [hlen]; exact hs.ptr i hi⟩⟩
  | fail => exact ⟨rfl, fun p h => by cases h⟩
  | diverge => exact ⟨rfl, fun p h => by cases h⟩
  | ub => exact ⟨rfl, fun p h => by cases h⟩

theorem callMacro_com (d : Nat) : ∀ (Y : List (Option Nat)) (n : Nat) (m : Text) (args : List Int), (Y = [] ∨ ∀ p ∈ args, p ≤ (n : Int)) →
    Com1 X Y n (callMacro env d m args) := by
  induction d with
  | zero => intro Y n m args _; exact Com1.bad (Or.inr (Or.inr rfl))
  | succ d ih =>
    intro Y n m args h s hs
    have hfix := fun s' (hc : callMacro env (d + 1) m args s = .ok s') => ((frame_closed env (d + 1)).call hc).length
    have hrun := fun ws => macroRun_com (X := X) (Y := Y) (n := n) env (call := callMacro env d) (fun n m args => ih [] n m args (Or.inl rfl)) (env.macros m).2 ws s hs
    have key : callMacro env (d + 1) m args (lift X Y s) = (callMacro env (d + 1) m args s).map (lift X Y) ∧
        ∀ s', callMacro env (d + 1) m args s = .ok s' → s'.heap.length = s.heap.length → Good n s' := by
      simp only [callMacro]
      by_cases h0 : (env.macros m).1 = 0
      · simp only [if_pos h0]
        exact hrun [] (by simp)
      · simp only [if_neg h0]
        by_cases h1 : args.length > (env.macros m).1
        · simp only [if_pos h1]
          exact ⟨rfl, fun p h => by cases h⟩
        · simp only [if_neg h1]
          rw [show macroArgs (lift X Y s).word args = macroArgs s.word args from macroArgs_append s.word args (h.imp id (fun h p hp => by rw [hs.len]; exact h p hp))]
          cases hx : macroArgs s.word args with
          | none => exact ⟨rfl, fun p h => by cases h⟩
          | some ws =>
            exact hrun (ws ++ List.replicate ((env.macros m).1 - args.length) none) (fun i hi => by
              rcases List.mem_append.1 hi with hi | hi
              · exact hs.ptr i (macroArgs_mem hx _ hi)
              · exact absurd (List.eq_of_mem_replicate hi) (by simp))
    exact ⟨key.1, fun s' hc => key.2 s' hc (hfix s' hc)⟩

/-- **C75, words.** A rule whose positions are those of its words does the same whatever other words there are after them. -/
theorem processRule_com (d : Nat) (action : List Instr) (h : Instr.withinL n action) : Com X Y n (processRule env d action) := by
  have h2 := execBlock_com (X := X) (Y := Y) (n := n) env (callMacro env d) (fun m args h => callMacro_com env d Y n m args h) action (-1) (Or.inr h)
  intro s hs
  obtain ⟨h3, h4⟩ := h2 s hs
  simp only [processRule]
  rw [h3]
  cases hx : execBlock (virt env) (callMacro env d) action (-1) s with
  | ok p => exact ⟨rfl, fun q h => by cases h; exact ⟨(h4 p hx).len, (h4 p hx).ptr⟩⟩
  | fail => exact ⟨rfl, fun p h => by cases h⟩
  | diverge => exact ⟨rfl, fun p h => by cases h⟩
  | ub => exact ⟨rfl, fun p h => by cases h⟩

/-! ## The bound on nested calls -/

theorem callMacro_succ (d : Nat) (n : Text) (args : List Int) (s : ISt) : Outcome.Le (callMacro env d n args s) (callMacro env (d + 1) n args s) := by
  induction d generalizing n args s with
  | zero => intro a h; cases h
  | succ d ih =>
    have hr := fun w => (execMacroBody_mono (v := virt env) (fun n a s => ih n a s) (env.macros n).2 { s with word := w }).map
      (fun s' => { s' with word := s.word })
    simp only [callMacro]
    split
    · exact hr []
    · split
      · exact Outcome.Le.refl _
      · split
        · exact Outcome.Le.refl _
        · exact hr _

theorem callMacro_mono {d d' : Nat} (h : d ≤ d') (n : Text) (args : List Int) (s : ISt) : Outcome.Le (callMacro env d n args s) (callMacro env d' n args s) := by
  induction h with
  | refl => exact Outcome.Le.refl _
  | step _ ih => exact fun a ha => callMacro_succ env _ n args s a (ih a ha)

/-- More nested calls allowed, the same result. -/
theorem processRule_mono {d d' : Nat} (h : d ≤ d') (action : List Instr) (s : ISt) : Outcome.Le (processRule env d action s) (processRule env d' action s) := by
  unfold processRule
  exact (execBlock_mono (fun n a s => callMacro_mono env h n a s) action (-1) s).map _

/-- A rule without `<reject-current-rule>` is not rejected. -/
theorem processRule_goes {env : TEnv} {d : Nat} {action : List Instr} (h : Instr.keepsL action) {s s' : ISt} {w : Int}
    (hx : processRule env d action s = .ok (w, s')) : w = -1 := by
  unfold processRule at hx
  obtain ⟨⟨w1, s1⟩, h1, h2⟩ := ok_map_eq hx
  cases h2
  exact execBlock_goes action h h1

end Verif.Inter
