import Verif.Whole.Props
/-!
# Left to right, longest match: what should be written, for any kind of words and rules

`Rewrites` is the specification for apertium-interchunk and apertium-postchunk; `engine` links it to the main loop (`Transfer.loopRun`).
-/
namespace Verif.Inter
open Verif.Transfer

/-- What should be written for `ws` (words of any kind, each with the text after it), when the rules before left `x`.  From left to right: the longest sequence of words that
some rule fits is given to the first rule that fits it; a word with which no such sequence begins is written as `dflt` says; the texts between are kept.

* `fits i us`: the pattern of rule `i` (from 0) fits the words `us`;
* `run i us x o y`: rule `i` with the words `us` (each with the text after it, the last one's is not the rule's) writes `o` and leaves `y`. -/
inductive Rewrites {U A : Type} (fits : Nat → List U → Prop) (run : Nat → List (U × Text) → A → Text → A → Prop) (dflt : U → Text) : A → List (U × Text) → Text → Prop
  | done {x : A} : Rewrites fits run dflt x [] []
  | rule {x y : A} {us ws : List (U × Text)} {u : U × Text} {i : Nat} {o out : Text} :
      fits i ((us ++ [u]).map (·.1)) →
      (∀ j, j < i → ¬ fits j ((us ++ [u]).map (·.1))) →
      (∀ vs, vs <+: ws → vs ≠ [] → ∀ j, ¬ fits j ((us ++ u :: vs).map (·.1))) →
      run i (us ++ [u]) x o y →
      Rewrites fits run dflt y ws out →
      Rewrites fits run dflt x (us ++ u :: ws) (o ++ u.2 ++ out)
  | word {x : A} {ws : List (U × Text)} {u : U × Text} {out : Text} :
      (∀ vs, vs <+: ws → ∀ j, ¬ fits j ((u :: vs).map (·.1))) →
      Rewrites fits run dflt x ws out →
      Rewrites fits run dflt x (u :: ws) (dflt u.1 ++ u.2 ++ out)

/-- The specification's parts are those of a program: an automaton, and what is done at a word (for each bound on nested calls). -/
structure EngineOk {σ U V A : Type} (M : Matcher σ) (a : Nat → Actions V) (tok : U → Text) (Fine : U → Prop) (fits : Nat → List U → Prop)
    (run : Nat → Nat → List (U × Text) → A → Text → A → Prop) (dflt : U → Text) (emb : A → V) : Prop where
  automaton : M.Ok
  longest : ∀ us : List U, (∀ u ∈ us, Fine u) → ∀ k r, M.Longest [] (us.map tok) k r ↔
    1 ≤ k ∧ k ≤ us.length ∧ (∃ i, r = i + 1 ∧ fits i (us.take k) ∧ ∀ j, j < i → ¬ fits j (us.take k)) ∧
      ∀ k', k < k' → k' ≤ us.length → ∀ j, ¬ fits j (us.take k')
  noMatch : ∀ us : List U, (∀ u ∈ us, Fine u) → (M.NoMatch [] (us.map tok) ↔ ∀ k, 1 ≤ k → k ≤ us.length → ∀ j, ¬ fits j (us.take k))
  loc : ∀ d, (a d).LocalFor M (fun w => ∃ u, Fine u ∧ tok u = w)
  word : ∀ d u, Fine u → (a d).dflt (tok u) = .ok (dflt u)
  rule : ∀ d i (us : List (U × Text)) (u : U × Text), (∀ u' ∈ us ++ [u], Fine u'.1) → fits i ((us ++ [u]).map (·.1)) → ∀ x n o v',
    (a d).apply (i + 1) ((us ++ [u]).map fun w => tok w.1) (us.map (·.2)) (us.length + 1) (emb x) = .ok (n, o, v') ↔
      n = -1 ∧ ∃ y, v' = emb y ∧ run d i (us ++ [u]) x o y
  goes : ∀ d r ws bs k v x, (a d).apply r ws bs k v = .ok x → x.1 < 0
  mono : ∀ d d' i us x o y, d ≤ d' → run d i us x o y → run d' i us x o y

section
variable {σ U V A : Type} {M : Matcher σ} {a : Nat → Actions V} {tok : U → Text} {Fine : U → Prop} {fits : Nat → List U → Prop}
  {run : Nat → Nat → List (U × Text) → A → Text → A → Prop} {dflt : U → Text} {emb : A → V} (H : EngineOk M a tok Fine fits run dflt emb)

/-- The words as the main loop sees them. -/
def unit (tok : U → Text) (w : U × Text) : Text × Text := (tok w.1, w.2)

theorem unit_fst (ws : List (U × Text)) : (ws.map (unit tok)).map (·.1) = ws.map fun w => tok w.1 := by simp [unit, Function.comp_def]
theorem unit_fst' (ws : List (U × Text)) : (ws.map (unit tok)).map (·.1) = (ws.map (·.1)).map tok := by simp [unit, Function.comp_def]
theorem unit_snd (ws : List (U × Text)) : (ws.map (unit tok)).map (·.2) = ws.map (·.2) := by simp [unit, Function.comp_def]

include H

theorem rewrites_greedy {x : A} {ws : List (U × Text)} {out : Text} (h : Rewrites fits (fun i us x o y => ∃ d, run d i us x o y) dflt x ws out)
    (hf : ∀ w ∈ ws, Fine w.1) : ∃ d0, ∀ d, d0 ≤ d → Greedy M (a d) true false [] (emb x) (ws.map (unit tok)) out := by
  induction h with
  | done => exact ⟨0, fun _ _ => .done⟩
  | @word x ws u out h1 _ ih =>
    obtain ⟨d0, hd⟩ := ih (fun w hw => hf w (by simp [hw]))
    refine ⟨d0, fun d h => Greedy.dflt ?_ (H.word d u.1 (hf u (by simp))) (hd d h)⟩
    have := (H.noMatch ((u :: ws).map (·.1)) (fun y hy => by obtain ⟨w, hw, rfl⟩ := List.mem_map.1 hy; exact hf w hw)).2 (fun k h2 h3 => by
      obtain ⟨k, rfl⟩ : ∃ k', k = k' + 1 := ⟨k - 1, by omega⟩
      rw [← List.map_take, List.take_succ_cons]
      exact h1 (ws.take k) (List.take_prefix _ _))
    rw [← unit_fst'] at this
    exact this
  | @rule x y us ws u i o out h1 h2 h3 h4 _ ih =>
    obtain ⟨d1, h4⟩ := h4
    have e : us ++ u :: ws = (us ++ [u]) ++ ws := by simp
    obtain ⟨d0, hd⟩ := ih (fun w hw => hf w (by simp [hw]))
    refine ⟨max d0 d1, fun d h => ?_⟩
    have hl : M.Longest [] (((us ++ u :: ws).map (unit tok)).map (·.1)) (us.length + 1) (i + 1) := by
      rw [unit_fst']
      refine (H.longest _ (fun y hy => by obtain ⟨w, hw, rfl⟩ := List.mem_map.1 hy; exact hf w hw) _ _).2 ⟨by omega, by simp, ?_, fun k' h6 h7 j => ?_⟩
      · rw [← List.map_take, e, List.take_left' (by simp)]
        exact ⟨i, rfl, h1, h2⟩
      · have := h3 (ws.take (k' - (us.length + 1))) (List.take_prefix _ _) (by
          simp only [List.length_map, List.length_append, List.length_cons] at h7
          intro e
          have := congrArg List.length e
          rw [List.length_take, List.length_nil] at this
          omega) j
        rw [← List.map_take, e, List.take_append, List.take_of_length_le (by simp; omega)]
        simpa using this
    have hap := (H.rule d i us u (fun w hw => hf w (by rw [e]; exact List.mem_append_left _ hw)) h1 x (-1) o (emb y)).2
      ⟨rfl, y, rfl, H.mono d1 d i _ x o y (by omega) h4⟩
    have key := Greedy.rule (strict := true) (shifted := false) (v := emb x) (ws := (us ++ u :: ws).map (unit tok)) (k := us.length + 1) (r := i + 1) (n := -1) (o := o)
      (b := u.2) (v' := emb y) (out := out) (a := a d) hl ?_ (by decide) ?_ ?_
    · exact key
    · rw [unit_fst, unit_snd, Whole.take_map_succ, Whole.take_map_us]
      exact hap
    · rw [unit_snd]; simp
    · rw [e, List.map_append, List.drop_left' (by simp)]
      exact hd d (by omega)

theorem greedy_rewrites {d : Nat} {x : A} {ws : List (U × Text)} {out : Text} (hf : ∀ w ∈ ws, Fine w.1)
    (h : Greedy M (a d) true false [] (emb x) (ws.map (unit tok)) out) : Rewrites fits (fun i us x o y => ∃ d, run d i us x o y) dflt x ws out := by
  have apply_eq : ∀ {ws : List (U × Text)} {x : A} {k r : Nat} {o : Text} {n : Int} {v' : V}, (∀ w ∈ ws, Fine w.1) →
      M.Longest [] ((ws.map (unit tok)).map (·.1)) k r →
      (a d).apply r (((ws.map (unit tok)).map (·.1)).take k) (((ws.map (unit tok)).map (·.2)).take (k - 1)) k (emb x) = .ok (n, o, v') →
      ∃ us u ws' i y, ws = us ++ u :: ws' ∧ k = us.length + 1 ∧ r = i + 1 ∧ fits i ((us ++ [u]).map (·.1)) ∧ (∀ j, j < i → ¬ fits j ((us ++ [u]).map (·.1))) ∧
        (∀ vs, vs <+: ws' → vs ≠ [] → ∀ j, ¬ fits j ((us ++ u :: vs).map (·.1))) ∧ run d i (us ++ [u]) x o y ∧ n = -1 ∧ v' = emb y := by
    intro ws x k r o n v' hf hl ha
    rw [unit_fst'] at hl
    obtain ⟨h1, h2, ⟨i, rfl, h3, h4⟩, h5⟩ := (H.longest _ (fun y hy => by obtain ⟨w, hw, rfl⟩ := List.mem_map.1 hy; exact hf w hw) k r).1 hl
    rw [List.length_map] at h2
    obtain ⟨us, u, ws', rfl, rfl⟩ : ∃ us u ws', ws = us ++ u :: ws' ∧ k = us.length + 1 := by
      refine ⟨ws.take (k - 1), ws[k - 1]'(by omega), ws.drop k, ?_, by simp; omega⟩
      have : ws.drop (k - 1) = ws[k - 1]'(by omega) :: ws.drop k := by
        rw [List.drop_eq_getElem_cons (by omega), show k - 1 + 1 = k by omega]
      rw [← this, List.take_append_drop]
    have e : us ++ u :: ws' = (us ++ [u]) ++ ws' := by simp
    rw [← List.map_take, e, List.take_left' (by simp)] at h3 h4
    rw [unit_fst, unit_snd, Whole.take_map_succ, Whole.take_map_us] at ha
    obtain ⟨rfl, y, rfl, h6⟩ := (H.rule d i us u (fun w hw => hf w (by rw [e]; exact List.mem_append_left _ hw)) h3 x n o v').1 ha
    refine ⟨us, u, ws', i, y, rfl, rfl, rfl, h3, h4, fun vs hvs hne j => ?_, h6, rfl, rfl⟩
    have hlen : 0 < vs.length := List.length_pos_iff.2 hne
    have := h5 (us.length + 1 + vs.length) (by omega) (by have := hvs.length_le; simp; omega) j
    rw [← List.map_take, e, List.take_append, List.take_of_length_le (by simp), show us.length + 1 + vs.length - (us ++ [u]).length = vs.length by simp,
      ← Whole.prefix_take hvs] at this
    simpa using this
  generalize hsh : false = sh at h
  generalize hban : ([] : List Nat) = banned at h
  generalize hw : ws.map (unit tok) = units at h
  generalize hv : emb x = v at h
  induction h generalizing ws x with
  | done => rw [List.map_eq_nil_iff.1 hw]; exact .done
  | @rule shifted banned v units k r n o v' out b hl ha hn hb _ ih =>
    subst hw; subst hban; subst hv
    obtain ⟨us, u, ws', i, y, rfl, rfl, rfl, h1, h2, h3, h4, rfl, rfl⟩ := apply_eq hf hl ha
    have e : us ++ u :: ws' = (us ++ [u]) ++ ws' := by simp
    have hb' : b = u.2 := by rw [unit_snd] at hb; simpa using hb.symm
    subst hb'
    exact Rewrites.rule h1 h2 h3 ⟨d, h4⟩ (ih (fun w hw => hf w (by simp [hw])) rfl rfl (by rw [e, List.map_append, List.drop_left' (by simp)]) rfl)
  | @shift shifted banned v units k r o v' out b n hl ha hn _ _ _ _ ih =>
    subst hw; subst hban; subst hv
    obtain ⟨_, _, _, _, _, _, _, _, _, _, _, _, hn', _⟩ := apply_eq hf hl ha
    omega
  | @reject shifted banned v units k r o v' out hl ha _ _ ih =>
    subst hw; subst hban; subst hv
    obtain ⟨_, _, _, _, _, _, _, _, _, _, _, _, hn', _⟩ := apply_eq hf hl ha
    omega
  | @dflt shifted banned v w b units o out h1 h2 _ ih =>
    subst hban
    cases ws with
    | nil => cases hw
    | cons u ws =>
      simp only [List.map_cons, List.cons.injEq] at hw
      obtain ⟨hu, rfl⟩ := hw
      simp only [unit, Prod.mk.injEq] at hu
      obtain ⟨rfl, rfl⟩ := hu
      have h2 : (a d).dflt (tok u.1) = .ok o := h2
      rw [H.word d u.1 (hf u (by simp))] at h2
      cases h2
      refine Rewrites.word ?_ (ih (fun w hw => hf w (by simp [hw])) rfl rfl rfl hv)
      have h3 := (H.noMatch ((u :: ws).map (·.1)) (fun y hy => by obtain ⟨w, hw, rfl⟩ := List.mem_map.1 hy; exact hf w hw)).1 (by
        have e : ((u :: ws).map (·.1)).map tok = tok u.1 :: (ws.map (unit tok)).map (·.1) := by rw [unit_fst']; rfl
        rw [e]; exact h1)
      intro vs hvs j
      have := h3 (vs.length + 1) (by omega) (by have := hvs.length_le; simp; omega) j
      rw [← List.map_take, List.take_succ_cons, ← Whole.prefix_take hvs] at this
      exact this

/-- The main loop ends normally just with what should be written. -/
theorem engine (x : A) (b : Text) (ws : List (U × Text)) (hf : ∀ w ∈ ws, Fine w.1) (t : Text) :
    (∃ d n, loopRun M (a d) (tokensOf b (ws.map (unit tok))) n (loopInit M (emb x)) = some (.ok t)) ↔
    ∃ out, t = b ++ out ∧ Rewrites fits (fun i us x o y => ∃ d, run d i us x o y) dflt x ws out := by
  have hP : ∀ y ∈ ws.map (unit tok), ∃ u, Fine u ∧ tok u = y.1 := by
    intro y hy
    obtain ⟨w, hw, rfl⟩ := List.mem_map.1 hy
    exact ⟨w.1, hf w hw, rfl⟩
  constructor
  · rintro ⟨d, n, h⟩
    obtain ⟨out, rfl, h4⟩ := Whole.greedy_of_run H.automaton (H.loc d) (H.goes d) _ _ hP _ h
    exact ⟨out, rfl, greedy_rewrites H hf h4⟩
  · rintro ⟨out, rfl, h1⟩
    obtain ⟨d, hd⟩ := rewrites_greedy H h1 hf
    obtain ⟨n, hn⟩ := greedy_runs H.automaton (H.loc d) b _ hP _ (hd d (Nat.le_refl _))
    exact ⟨d, n, hn⟩

/-- There is at most one thing to write. -/
theorem engine_unique (x : A) (ws : List (U × Text)) (hf : ∀ w ∈ ws, Fine w.1) (o o' : Text)
    (h1 : Rewrites fits (fun i us x o y => ∃ d, run d i us x o y) dflt x ws o) (h2 : Rewrites fits (fun i us x o y => ∃ d, run d i us x o y) dflt x ws o') : o = o' := by
  have hP : ∀ y ∈ ws.map (unit tok), ∃ u, Fine u ∧ tok u = y.1 := by
    intro y hy
    obtain ⟨w, hw, rfl⟩ := List.mem_map.1 hy
    exact ⟨w.1, hf w hw, rfl⟩
  obtain ⟨d1, hd1⟩ := rewrites_greedy H h1 hf
  obtain ⟨d2, hd2⟩ := rewrites_greedy H h2 hf
  obtain ⟨n1, e1⟩ := greedy_runs H.automaton (H.loc (max d1 d2)) [] _ hP _ (hd1 _ (by omega))
  obtain ⟨n2, e2⟩ := greedy_runs H.automaton (H.loc (max d1 d2)) [] _ hP _ (hd2 _ (by omega))
  have e3 := Token.loopRun_mono (k := n2) e1
  have e4 := Token.loopRun_mono (k := n1) e2
  rw [Nat.add_comm n2 n1, e3] at e4
  simpa using e4
end

end Verif.Inter
