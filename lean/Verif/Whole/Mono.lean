import Verif.Transfer.More
import Verif.Whole.Spec
/-!
# The bound on nested macro calls does not matter; rules without `<reject-current-rule>`
-/
namespace Verif.Transfer

variable {S : Type} {v : Virt S} {call call' : Text → List Int → S → Outcome S}

/-- `o` ends normally only if `o'` does, with the same result. -/
def Outcome.Le {α : Type} (o o' : Outcome α) : Prop := ∀ a, o = .ok a → o' = .ok a

theorem Outcome.Le.bind {α β : Type} {o o' : Outcome α} {f f' : α → Outcome β} (h : Outcome.Le o o') (hf : ∀ a, Outcome.Le (f a) (f' a)) :
    Outcome.Le (o.bind f) (o'.bind f') := by
  intro b hb
  obtain ⟨a, h1, h2⟩ := ok_bind_eq hb
  rw [h a h1]
  exact hf a b h2

theorem Outcome.Le.map {α β : Type} {o o' : Outcome α} (h : Outcome.Le o o') (f : α → β) : Outcome.Le (o.map f) (o'.map f) := by
  intro b hb
  obtain ⟨a, h1, h2⟩ := ok_map_eq hb
  rw [h a h1]
  exact congrArg Outcome.ok h2

theorem Outcome.Le.refl {α : Type} (o : Outcome α) : Outcome.Le o o := fun _ h => h

section
variable (hc : ∀ n a s, Outcome.Le (call n a s) (call' n a s))
include hc

mutual
theorem exec_mono : (i : Instr) → (s : S) → Outcome.Le (exec v call i s) (exec v call' i s)
  | .choose opts, s => by simp only [exec]; exact execChoose_mono opts (-1) s
  | .assign l r, s => by simp only [exec]; exact Outcome.Le.refl _
  | .append n es, s => by simp only [exec]; exact Outcome.Le.refl _
  | .out es, s => by simp only [exec]; exact Outcome.Le.refl _
  | .callMacro n args, s => by simp only [exec]; exact (hc n args s).map _
  | .modifyCase l r, s => by simp only [exec]; exact Outcome.Le.refl _
  | .reject sh, s => by simp only [exec]; exact Outcome.Le.refl _
  | .unknown, s => by simp only [exec]; exact Outcome.Le.refl _
theorem execChoose_mono : (os : List Opt) → (w : Int) → (s : S) → Outcome.Le (execChoose v call os w s) (execChoose v call' os w s)
  | [], w, s => by simp only [execChoose]; exact Outcome.Le.refl _
  | .when items :: os, w, s => by
    simp only [execChoose]
    refine (execWhen_mono items false w s).bind (fun ⟨b, w', s'⟩ => ?_)
    dsimp only
    split
    · exact Outcome.Le.refl _
    · exact execChoose_mono os w' s'
  | .otherwise body :: os, w, s => by
    simp only [execChoose]
    refine (execBlock_mono body w s).bind (fun ⟨w', s'⟩ => ?_)
    dsimp only
    split
    · exact Outcome.Le.refl _
    · exact execChoose_mono os w' s'
  | .unknown :: os, w, s => by simp only [execChoose]; exact execChoose_mono os w s
theorem execWhen_mono : (is : List WhenItem) → (b : Bool) → (w : Int) → (s : S) → Outcome.Le (execWhen v call is b w s) (execWhen v call' is b w s)
  | [], b, w, s => by simp only [execWhen]; exact Outcome.Le.refl _
  | .test cs :: is, b, w, s => by
    simp only [execWhen]
    refine (Outcome.Le.refl _).bind (fun ⟨c, s'⟩ => ?_)
    dsimp only
    split
    · exact execWhen_mono is true w s'
    · exact Outcome.Le.refl _
  | .instr i :: is, b, w, s => by
    simp only [execWhen]
    refine (exec_mono i s).bind (fun ⟨w', s'⟩ => ?_)
    dsimp only
    split
    · exact Outcome.Le.refl _
    · exact execWhen_mono is b w' s'
theorem execBlock_mono : (is : List Instr) → (w : Int) → (s : S) → Outcome.Le (execBlock v call is w s) (execBlock v call' is w s)
  | [], w, s => by simp only [execBlock]; exact Outcome.Le.refl _
  | i :: is, w, s => by
    simp only [execBlock]
    refine (exec_mono i s).bind (fun ⟨w', s'⟩ => ?_)
    dsimp only
    split
    · exact Outcome.Le.refl _
    · exact execBlock_mono is w' s'
end

theorem execMacroBody_mono (is : List Instr) (s : S) : Outcome.Le (execMacroBody v call is s) (execMacroBody v call' is s) := by
  induction is generalizing s with
  | nil => exact Outcome.Le.refl _
  | cons i is ih => exact (exec_mono hc i s).bind (fun ⟨_, s'⟩ => ih s')
end

theorem callMacro_succ (env : TEnv) (d : Nat) (n : Text) (args : List Int) (s : TSt) :
    Outcome.Le (callMacro env d n args s) (callMacro env (d + 1) n args s) := by
  induction d generalizing n args s with
  | zero => intro a h; cases h
  | succ d ih =>
    have hr := fun w => (execMacroBody_mono (v := virt env) (fun n a s => ih n a s) (env.macros n).2 { s with word := w }).map
      (fun s' => { s' with word := s.word })
    simp only [callMacro]
    split
    · exact hr []
    · split
      · exact Outcome.Le.refl _
      · split
        · exact Outcome.Le.refl _
        · exact hr _

theorem callMacro_mono (env : TEnv) {d d' : Nat} (h : d ≤ d') (n : Text) (args : List Int) (s : TSt) :
    Outcome.Le (callMacro env d n args s) (callMacro env d' n args s) := by
  induction h with
  | refl => exact Outcome.Le.refl _
  | step _ ih => exact fun a ha => callMacro_succ env _ n args s a (ih a ha)

/-- More nested calls allowed, the same result. -/
theorem processRule_mono (env : TEnv) {d d' : Nat} (h : d ≤ d') (action : List Instr) (s : TSt) :
    Outcome.Le (processRule env d action s) (processRule env d' action s) := by
  unfold processRule
  exact (execBlock_mono (fun n a s => callMacro_mono env h n a s) action (-1) s).map _

/-! ## No rejection -/

mutual
theorem exec_goes : (i : Instr) → i.keeps → ∀ {s : S} {w : Int} {s' : S}, exec v call i s = .ok (w, s') → w = -1
  | .choose opts, h, s, w, s', hx => by simp only [exec] at hx; exact execChoose_goes opts (by simpa only [Instr.keeps] using h) hx
  | .assign l r, _, s, w, s', hx => by simp only [exec] at hx; obtain ⟨_, _, e⟩ := ok_map_eq hx; cases e; rfl
  | .append n es, _, s, w, s', hx => by simp only [exec] at hx; obtain ⟨_, _, e⟩ := ok_map_eq hx; cases e; rfl
  | .out es, _, s, w, s', hx => by simp only [exec] at hx; obtain ⟨_, _, e⟩ := ok_map_eq hx; cases e; rfl
  | .callMacro n args, _, s, w, s', hx => by simp only [exec] at hx; obtain ⟨_, _, e⟩ := ok_map_eq hx; cases e; rfl
  | .modifyCase l r, _, s, w, s', hx => by simp only [exec] at hx; obtain ⟨_, _, e⟩ := ok_map_eq hx; cases e; rfl
  | .reject sh, h, s, w, s', hx => by simp only [Instr.keeps] at h
  | .unknown, _, s, w, s', hx => by simp only [exec] at hx; cases hx; rfl
theorem execChoose_goes : (os : List Opt) → Opt.keepsL os → ∀ {s : S} {w : Int} {s' : S}, execChoose v call os (-1) s = .ok (w, s') → w = -1
  | [], _, s, w, s', hx => by simp only [execChoose] at hx; cases hx; rfl
  | .when items :: os, h, s, w, s', hx => by
    simp only [Opt.keepsL, Opt.keeps] at h
    simp only [execChoose] at hx
    obtain ⟨⟨b, w1, s1⟩, h1, h2⟩ := ok_bind_eq hx
    have e := execWhen_goes items h.1 h1
    subst e
    dsimp only at h2
    split at h2
    · cases h2; rfl
    · exact execChoose_goes os h.2 h2
  | .otherwise body :: os, h, s, w, s', hx => by
    simp only [Opt.keepsL, Opt.keeps] at h
    simp only [execChoose] at hx
    obtain ⟨⟨w1, s1⟩, h1, h2⟩ := ok_bind_eq hx
    have e := execBlock_goes body h.1 h1
    subst e
    simp only [ne_eq, not_true_eq_false, if_false] at h2
    exact execChoose_goes os h.2 h2
  | .unknown :: os, h, s, w, s', hx => by
    simp only [Opt.keepsL] at h
    simp only [execChoose] at hx
    exact execChoose_goes os h.2 hx
theorem execWhen_goes : (is : List WhenItem) → WhenItem.keepsL is → ∀ {b : Bool} {s : S} {b' : Bool} {w : Int} {s' : S},
    execWhen v call is b (-1) s = .ok (b', w, s') → w = -1
  | [], _, b, s, b', w, s', hx => by simp only [execWhen] at hx; cases hx; rfl
  | .test cs :: is, h, b, s, b', w, s', hx => by
    simp only [WhenItem.keepsL] at h
    simp only [execWhen] at hx
    obtain ⟨⟨c, s1⟩, h1, h2⟩ := ok_bind_eq hx
    dsimp only at h2
    split at h2
    · exact execWhen_goes is h.2 h2
    · cases h2; rfl
  | .instr i :: is, h, b, s, b', w, s', hx => by
    simp only [WhenItem.keepsL, WhenItem.keeps] at h
    simp only [execWhen] at hx
    obtain ⟨⟨w1, s1⟩, h1, h2⟩ := ok_bind_eq hx
    have e := exec_goes i h.1 h1
    subst e
    simp only [ne_eq, not_true_eq_false, if_false] at h2
    exact execWhen_goes is h.2 h2
theorem execBlock_goes : (is : List Instr) → Instr.keepsL is → ∀ {s : S} {w : Int} {s' : S}, execBlock v call is (-1) s = .ok (w, s') → w = -1
  | [], _, s, w, s', hx => by simp only [execBlock] at hx; cases hx; rfl
  | i :: is, h, s, w, s', hx => by
    simp only [Instr.keepsL] at h
    simp only [execBlock] at hx
    obtain ⟨⟨w1, s1⟩, h1, h2⟩ := ok_bind_eq hx
    have e := exec_goes i h.1 h1
    subst e
    simp only [ne_eq, not_true_eq_false, if_false] at h2
    exact execBlock_goes is h.2 h2
end

/-- A rule without `<reject-current-rule>` is not rejected. -/
theorem processRule_goes {env : TEnv} {d : Nat} {action : List Instr} (h : Instr.keepsL action) {s s' : TSt} {w : Int}
    (hx : processRule env d action s = .ok (w, s')) : w = -1 := by
  unfold processRule at hx
  obtain ⟨⟨w1, s1⟩, h1, h2⟩ := ok_map_eq hx
  cases h2
  exact execBlock_goes action h h1

end Verif.Transfer
