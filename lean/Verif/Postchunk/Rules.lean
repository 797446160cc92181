import Verif.Postchunk.Model
import Verif.Whole.Mono
import Verif.Transfer.Props
/-!
# C76: what rules of apertium-postchunk leave, and the bound on nested calls
-/
namespace Verif.Postchunk
open Verif.Transfer

/-- The pointers are as before, the flags (outside `<out>`, `<lu>`, `<let>`) too; what has been written stays, and no word is added. -/
structure Frame (s s' : PSt) : Prop where
  word : s'.word = s.word
  heap : s'.heap.length = s.heap.length
  count : s'.count = s.count
  inOut : s.inOut = false → s'.inOut = false
  inLu : s.inLu = false → s'.inLu = false
  inLetVar : s.inLetVar = false → s'.inLetVar = false
  out : s.out <+: s'.out

theorem Frame.refl (s : PSt) : Frame s s := ⟨rfl, rfl, rfl, id, id, id, List.prefix_refl _⟩
theorem Frame.trans {a b c : PSt} (h : Frame a b) (h' : Frame b c) : Frame a c :=
  ⟨h'.word.trans h.word, h'.heap.trans h.heap, h'.count.trans h.count, fun x => h'.inOut (h.inOut x), fun x => h'.inLu (h.inLu x), fun x => h'.inLetVar (h.inLetVar x),
    h.out.trans h'.out⟩

/-- An expression changes nothing but the queue of blanks, the collected word-bound blanks, and (to false) `in_lu`. -/
structure Still (s s' : PSt) : Prop where
  heap : s'.heap = s.heap
  word : s'.word = s.word
  vars : s'.vars = s.vars
  count : s'.count = s.count
  inOut : s'.inOut = s.inOut
  inLu : s.inLu = false → s'.inLu = false
  inLetVar : s'.inLetVar = s.inLetVar
  out : s'.out = s.out

theorem Still.refl (s : PSt) : Still s s := ⟨rfl, rfl, rfl, rfl, rfl, id, rfl, rfl⟩
theorem Still.trans {a b c : PSt} (h : Still a b) (h' : Still b c) : Still a c :=
  ⟨h'.heap.trans h.heap, h'.word.trans h.word, h'.vars.trans h.vars, h'.count.trans h.count, h'.inOut.trans h.inOut, fun x => h'.inLu (h.inLu x),
    h'.inLetVar.trans h.inLetVar, h'.out.trans h.out⟩
theorem Still.frame {s s' : PSt} (h : Still s s') : Frame s s' :=
  ⟨h.word, by rw [h.heap], h.count, fun x => h.inOut.trans x, h.inLu, fun x => h.inLetVar.trans x, by rw [h.out]; exact List.prefix_refl _⟩

variable (env : TEnv)

theorem addWblank_still {part wb : Text} {s s' : PSt} (h : addWblank part wb s = .ok s') : Still s s' := by
  unfold addWblank at h
  split at h
  · split at h
    · obtain ⟨t, _, rfl⟩ := ok_map_eq h; exact ⟨rfl, rfl, rfl, rfl, rfl, id, rfl, rfl⟩
    · split at h
      · obtain ⟨t, _, rfl⟩ := ok_map_eq h; exact ⟨rfl, rfl, rfl, rfl, rfl, id, rfl, rfl⟩
      · cases h; exact Still.refl _
  · cases h; exact Still.refl _

theorem evalSimple_still {e : Simple} {s s' : PSt} {t : Text} (h : evalSimple env e s = .ok (t, s')) : Still s s' := by
  cases e with
  | clip pos sd part q lt =>
    simp only [evalSimple] at h
    obtain ⟨o, _, h⟩ := ok_bind_eq h
    rcases o with _ | ⟨i, w⟩
    · cases h; exact Still.refl _
    · obtain ⟨s1, h1, h⟩ := ok_map_eq h; cases h; exact addWblank_still h1
  | lit v => simp only [evalSimple] at h; cases h; exact Still.refl _
  | var n =>
    simp only [evalSimple] at h
    split at h
    · obtain ⟨t, _, h⟩ := ok_map_eq h; cases h; exact ⟨rfl, rfl, rfl, rfl, rfl, id, rfl, rfl⟩
    · cases h; exact Still.refl _

theorem finishLu_still {m t : Text} {s s' : PSt} (h : finishLu m s = .ok (t, s')) : Still s s' := by
  unfold finishLu at h
  split at h
  · split at h
    · split at h
      · cases h
      · cases h; exact ⟨rfl, rfl, rfl, rfl, rfl, id, rfl, rfl⟩
    · cases h
  · cases h; exact Still.refl _

theorem lu_still {s s1 s' : PSt} {m t : Text} (h : Still { s with inLu := true, outWb := [] } s1) (h' : finishLu m { s1 with inLu := false } = .ok (t, s')) : Still s s' := by
  have F := finishLu_still h'
  exact ⟨F.heap.trans h.heap, F.word.trans h.word, F.vars.trans h.vars, F.count.trans h.count, F.inOut.trans h.inOut, fun _ => F.inLu rfl, F.inLetVar.trans h.inLetVar,
    F.out.trans h.out⟩

mutual
theorem evalExpr_still : (e : Expr) → ∀ {s s' : PSt} {t : Text}, evalExpr env e s = .ok (t, s') → Still s s'
  | .simple e, _, _, _, h => by simp only [evalExpr] at h; exact evalSimple_still env h
  | .litTag v, _, _, _, h => by simp only [evalExpr] at h; cases h; exact Still.refl _
  | .blank, s, s', t, h => by
    simp only [evalExpr] at h
    split at h
    · cases h; exact Still.refl _
    · cases h; split <;> exact ⟨rfl, rfl, rfl, rfl, rfl, id, rfl, rfl⟩
  | .getCaseFrom pos e, _, _, _, h => by
    simp only [evalExpr] at h
    obtain ⟨o, _, h⟩ := ok_bind_eq h
    rcases o with _ | ⟨i, w⟩
    · cases h; exact Still.refl _
    · obtain ⟨⟨d, s1⟩, h1, h⟩ := ok_map_eq h; cases h; exact evalSimple_still env h1
  | .luCount, _, _, _, h => by simp only [evalExpr] at h; cases h; exact Still.refl _
  | .caseOf pos sd part, _, _, _, h => by
    simp only [evalExpr] at h
    obtain ⟨o, _, h⟩ := ok_bind_eq h
    rcases o with _ | ⟨i, w⟩ <;> (cases h; exact Still.refl _)
  | .concat es, _, _, _, h => by simp only [evalExpr] at h; exact evalList_still es h
  | .lu es, _, _, _, h => by
    simp only [evalExpr] at h
    obtain ⟨⟨m, s1⟩, h1, h⟩ := ok_bind_eq h
    exact lu_still (evalList_still es h1) h
  | .mlu ls, _, _, _, h => by
    simp only [evalExpr] at h
    obtain ⟨⟨m, s1⟩, h1, h⟩ := ok_bind_eq h
    exact lu_still (evalMlu_still ls h1) h
  | .chunk a b c items, _, _, _, h => by simp only [evalExpr] at h; cases h
  | .tags ts, _, _, _, h => by simp only [evalExpr] at h; cases h
  | .unknown, _, _, _, h => by simp only [evalExpr] at h; cases h
theorem evalList_still : (es : List Expr) → ∀ {s s' : PSt} {t : Text}, evalList env es s = .ok (t, s') → Still s s'
  | [], _, _, _, h => by simp only [evalList] at h; cases h; exact Still.refl _
  | e :: es, _, _, _, h => by
    simp only [evalList] at h
    obtain ⟨⟨t1, s1⟩, h1, h⟩ := ok_bind_eq h
    obtain ⟨⟨t2, s2⟩, h2, h⟩ := ok_map_eq h
    cases h
    exact (evalExpr_still e h1).trans (evalList_still es h2)
theorem evalMlu_still : (ls : List (List Expr)) → ∀ {first : Bool} {s s' : PSt} {t : Text}, evalMlu env ls first s = .ok (t, s') → Still s s'
  | [], _, _, _, _, h => by simp only [evalMlu] at h; cases h; exact Still.refl _
  | l :: ls, _, _, _, _, h => by
    simp only [evalMlu] at h
    obtain ⟨⟨t1, s1⟩, h1, h⟩ := ok_bind_eq h
    obtain ⟨⟨t2, s2⟩, h2, h⟩ := ok_map_eq h
    cases h
    exact (evalList_still l h1).trans (evalMlu_still ls h2)
end

theorem outLoop_frame (es : List Expr) {s s' : PSt} (h : outLoop env es s = .ok s') : Frame s s' := by
  induction es generalizing s with
  | nil => simp only [outLoop] at h; cases h; exact Frame.refl _
  | cons e es ih =>
    simp only [outLoop] at h
    obtain ⟨⟨t, s1⟩, h1, h⟩ := ok_bind_eq h
    have F := (evalExpr_still env e h1).frame
    have G := ih h
    exact ⟨G.word.trans F.word, G.heap.trans F.heap, G.count.trans F.count, fun x => G.inOut (F.inOut x), fun x => G.inLu (F.inLu x),
      fun x => G.inLetVar (F.inLetVar x), F.out.trans ((List.prefix_append _ t).trans G.out)⟩

theorem processOut_frame (es : List Expr) {s s' : PSt} (h : processOut env es s = .ok s') : Frame s s' := by
  unfold processOut at h
  obtain ⟨s1, h1, rfl⟩ := ok_map_eq h
  have F := outLoop_frame env es h1
  exact ⟨F.word, F.heap, F.count, fun _ => rfl, F.inLu, F.inLetVar, F.out⟩

theorem processAppend_frame (n : Text) (es : List Expr) {s s' : PSt} (h : processAppend env n es s = .ok s') : Frame s s' := by
  induction es generalizing s with
  | nil => simp only [processAppend] at h; cases h; exact Frame.refl _
  | cons e es ih =>
    simp only [processAppend] at h
    obtain ⟨⟨t, s1⟩, h1, h⟩ := ok_bind_eq h
    have F := (evalExpr_still env e h1).frame
    have G := ih h
    exact ⟨G.word.trans F.word, G.heap.trans F.heap, G.count.trans F.count, fun x => G.inOut (F.inOut x), fun x => G.inLu (F.inLu x),
      fun _ => G.inLetVar rfl, F.out.trans G.out⟩

theorem processLet_frame {l r : Expr} {s s' : PSt} (h : processLet env l r s = .ok s') : Frame s s' := by
  unfold processLet at h
  split at h
  · obtain ⟨⟨t, s1⟩, h1, rfl⟩ := ok_map_eq h
    have F := (evalExpr_still env r h1).frame
    exact ⟨F.word, F.heap, F.count, F.inOut, F.inLu, fun _ => rfl, F.out⟩
  · obtain ⟨⟨i, w⟩, h0, h⟩ := ok_bind_eq h
    obtain ⟨⟨t, s1⟩, h1, rfl⟩ := ok_map_eq h
    have F := (evalExpr_still env r h1).frame
    exact ⟨F.word, by simpa using F.heap, F.count, F.inOut, F.inLu, F.inLetVar, F.out⟩
  · cases h; exact Frame.refl _

theorem processModifyCase_frame {l r : Expr} {s s' : PSt} (h : processModifyCase env l r s = .ok s') : Frame s s' := by
  unfold processModifyCase at h
  split at h
  · cases h; exact Frame.refl _
  · split at h
    · obtain ⟨⟨i, w⟩, h0, h⟩ := ok_bind_eq h
      obtain ⟨⟨t, s1⟩, h1, rfl⟩ := ok_map_eq h
      have F := (evalExpr_still env r h1).frame
      exact ⟨F.word, by simpa using F.heap, F.count, F.inOut, F.inLu, F.inLetVar, F.out⟩
    · obtain ⟨⟨t, s1⟩, h1, rfl⟩ := ok_map_eq h
      have F := (evalExpr_still env r h1).frame
      exact ⟨F.word, F.heap, F.count, F.inOut, F.inLu, F.inLetVar, F.out⟩
    · cases h; exact Frame.refl _

theorem frame_closed (d : Nat) : Closed (virt env) (callMacro env d) Frame := by
  induction d with
  | zero =>
    exact {
      refl := Frame.refl
      trans := Frame.trans
      eval := fun h => (evalExpr_still env _ h).frame
      assign := fun h => processLet_frame env h
      append := fun h => processAppend_frame env _ _ h
      out := fun h => processOut_frame env _ h
      modify := fun h => processModifyCase_frame env h
      call := fun h => by cases h }
  | succ d ih =>
    have hbody : ∀ (is : List Instr) {s s' : PSt}, execMacroBody (virt env) (callMacro env d) is s = .ok s' → Frame s s' := by
      intro is
      induction is with
      | nil => intro s s' h; simp only [execMacroBody] at h; cases h; exact Frame.refl _
      | cons i is ih' =>
        intro s s' h
        simp only [execMacroBody] at h
        obtain ⟨⟨w, s1⟩, h1, h⟩ := ok_bind_eq h
        exact (ih.exec i h1).trans (ih' h)
    exact { ih with
      call := fun {n args s s'} h => by
        simp only [callMacro] at h
        split at h
        · cases h
        · split at h
          · cases h
          · split at h
            · cases h
            · obtain ⟨⟨os, ok⟩, _, h⟩ := ok_bind_eq h
              cases ok with
              | false => cases h; exact Frame.refl _
              | true =>
                obtain ⟨s1, h1, rfl⟩ := ok_map_eq h
                have F := hbody _ h1
                exact ⟨rfl, F.heap, F.count, F.inOut, F.inLu, F.inLetVar, F.out⟩ }

theorem processRule_frame {d : Nat} {action : List Instr} {s s' : PSt} {w : Int} (h : processRule env d action s = .ok (w, s')) : Frame s s' := by
  unfold processRule at h
  obtain ⟨⟨w1, s1⟩, h1, h2⟩ := ok_map_eq h
  cases h2
  have F := (frame_closed env d).block action h1
  exact ⟨F.word, F.heap, F.count, F.inOut, F.inLu, F.inLetVar, F.out.trans (List.prefix_append _ _)⟩

theorem processRule_blanks {d : Nat} {action : List Instr} {s s' : PSt} {w : Int} (h : processRule env d action s = .ok (w, s')) : s'.blanks = [] := by
  unfold processRule at h
  obtain ⟨⟨w1, s1⟩, h1, h2⟩ := ok_map_eq h
  cases h2
  rfl

/-! ## The bound on nested calls -/

theorem callMacro_succ (d : Nat) (n : Text) (args : List Int) (s : PSt) : Outcome.Le (callMacro env d n args s) (callMacro env (d + 1) n args s) := by
  induction d generalizing n args s with
  | zero => intro a h; cases h
  | succ d ih =>
    have hr := fun w => (execMacroBody_mono (v := virt env) (fun n a s => ih n a s) (env.macros n).2 { s with word := w }).map
      (fun s' => { s' with word := s.word })
    simp only [callMacro]
    split
    · exact Outcome.Le.refl _
    · split
      · exact Outcome.Le.refl _
      · split
        · exact Outcome.Le.refl _
        · cases macroArgs s.word args with
          | ok p =>
            obtain ⟨os, ok⟩ := p
            cases ok with
            | false => exact Outcome.Le.refl _
            | true => exact hr _
          | fail => exact Outcome.Le.refl _
          | diverge => exact Outcome.Le.refl _
          | ub => exact Outcome.Le.refl _

theorem callMacro_mono {d d' : Nat} (h : d ≤ d') (n : Text) (args : List Int) (s : PSt) : Outcome.Le (callMacro env d n args s) (callMacro env d' n args s) := by
  induction h with
  | refl => exact Outcome.Le.refl _
  | step _ ih => exact fun a ha => callMacro_succ env _ n args s a (ih a ha)

/-- More nested calls allowed, the same result. -/
theorem processRule_mono {d d' : Nat} (h : d ≤ d') (action : List Instr) (s : PSt) : Outcome.Le (processRule env d action s) (processRule env d' action s) := by
  unfold processRule
  exact (execBlock_mono (fun n a s => callMacro_mono env h n a s) action (-1) s).map _

/-- A rule without `<reject-current-rule>` is not rejected. -/
theorem processRule_goes {env : TEnv} {d : Nat} {action : List Instr} (h : Instr.keepsL action) {s s' : PSt} {w : Int}
    (hx : processRule env d action s = .ok (w, s')) : w = -1 := by
  unfold processRule at hx
  obtain ⟨⟨w1, s1⟩, h1, h2⟩ := ok_map_eq hx
  cases h2
  exact execBlock_goes action h h1

end Verif.Postchunk
