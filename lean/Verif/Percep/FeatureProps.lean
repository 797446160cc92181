import Verif.Percep.ReaderProps
/-!
# C58: the features of a position
-/
namespace Verif.VM
open Verif.Unigram
open Verif.Percep (Tagged)

/-! ### Specification -/

/-- No variables. -/
def noVars : Env := fun _ => none

/-- What a template offers for each part of its keys.  `some none`: the template does not apply here (a condition is false, or there is nothing to
choose from).  `none`: no meaning. -/
def columns (c : Ctx) : List Stmt → Option (Option (List (List Str)))
  | [] => some (some [])
  | .pred e :: ss =>
    match meaning c e noVars with
    | some [.bool true] => columns c ss
    | some [.bool false] => some none
    | _ => none
  | .outStr e :: ss =>
    match meaning c e noVars with
    | some [.str s] => (columns c ss).map (Option.map ([s] :: ·))
    | _ => none
  | .outBool e :: ss =>
    match meaning c e noVars with
    | some [.bool b] => (columns c ss).map (Option.map ([if b then [116] else [102]] :: ·))
    | _ => none
  | .outInt e :: ss =>
    match meaning c e noVars with
    | some [.int i] => (columns c ss).map (Option.map ([intStr i] :: ·))
    | _ => none
  | .outMany e :: ss =>
    match meaning c e noVars with
    | some [.strs []] => some none
    | some [.strs l] => (columns c ss).map (Option.map (l :: ·))
    | _ => none
  | .forEach _ _ _ :: _ => none

/-- One string of each column. -/
inductive Choice : List Str → List (List Str) → Prop
  | nil : Choice [] []
  | cons {x xs col cols} : x ∈ col → Choice xs cols → Choice (x :: xs) (col :: cols)

/-- The number of choices. -/
def choices : List (List Str) → Nat
  | [] => 1
  | col :: cols => col.length * choices cols

/-- The expression of an instruction fits. -/
def Stmt.Fits : Stmt → Prop
  | .pred e | .outStr e | .outBool e | .outInt e | .outMany e => VM.Fits e
  | .forEach _ _ _ => False

/-- The cases that the code gets right.  In an `and` that is all of a condition any operand may be false: the run ends at once. -/
def Stmt.Clean (c : Ctx) : Stmt → Prop
  | .pred (.and e) => VM.Clean c e noVars
  | .pred e | .outStr e | .outBool e | .outInt e | .outMany e => VM.Clean c e noVars
  | .forEach _ _ _ => False

/-- `Clean` for the instructions that are run. -/
def CleanFeat (c : Ctx) : List Stmt → Prop
  | [] => True
  | s :: ss => s.Clean c ∧ (columns c [s] ≠ some none → CleanFeat c ss)

/-! ### Runs -/

theorem step_lt {c : Ctx} {code : List Cell} {s : State} {r : Option State} (h : step c code s = .ok r) : s.pc < code.length := by
  rcases Nat.lt_or_ge s.pc code.length with hl | hl
  · exact hl
  · rw [step, List.getElem?_eq_none hl] at h
    simp at h

theorem runFeature_steps {c : Ctx} {code : List Cell} {s s' : State} (h : Steps c code s s') :
    ∃ n, ∀ m, runFeature c code (n + m) s = runFeature c code m s' := by
  induction h with
  | refl => exact ⟨0, fun m => by rw [Nat.zero_add]⟩
  | head h1 _ ih =>
    obtain ⟨n, hn⟩ := ih
    refine ⟨n + 1, fun m => ?_⟩
    have := step_lt h1
    rw [show n + 1 + m = (n + m) + 1 by omega, runFeature, if_neg (by omega), h1]
    exact hn m

theorem runFeature_die {c : Ctx} {code : List Cell} {s s' : State} (h : Steps c code s s') (hd : step c code s' = .ok none) :
    ∃ n, ∀ fuel, n ≤ fuel → runFeature c code fuel s = .ok [] := by
  obtain ⟨n, hn⟩ := runFeature_steps h
  refine ⟨n + 1, fun fuel hf => ?_⟩
  have := step_lt hd
  rw [show fuel = n + ((fuel - n - 1) + 1) by omega, hn, runFeature, if_neg (by omega), hd]

theorem falseLoop (c : Ctx) (code : List Cell) (n : Nat)
    (pc : Nat) (st : List Val) (ls : List Loop) (slots : List (Option Val)) (feats : List Key)
    (hat : At code pc (List.replicate n (.op .and))) :
    Steps c code ⟨pc, .bool false :: st, ls, slots, feats⟩ ⟨pc + n, .bool false :: st, ls, slots, feats⟩ := by
  induction n generalizing pc with
  | zero => exact .refl _
  | succ n ih =>
    rw [List.replicate_succ] at hat
    have h2 := At.append (a := [.op .and]) (b := List.replicate n (.op .and)) hat
    refine Steps.head (s' := ⟨pc + 1, .bool false :: st, ls, slots, feats⟩) ?_ ?_
    · rw [step0 h2.1 rfl]
      simp [exec, State.next, Op.operands]
    · have := ih (pc + 1) h2.2
      simpa [Nat.add_assoc, Nat.add_comm 1 n] using this

theorem andLoop_false (c : Ctx) (code : List Cell) (bs : List Bool) (h : false ∈ bs) (n : Nat) (hn : bs.length = n + 1)
    (pc : Nat) (st : List Val) (ls : List Loop) (slots : List (Option Val)) (feats : List Key)
    (hat : At code pc (List.replicate n (.op .and))) :
    ∃ st', Steps c code ⟨pc, bs.map .bool ++ st, ls, slots, feats⟩ ⟨pc + n, .bool false :: st', ls, slots, feats⟩ := by
  induction n generalizing bs pc with
  | zero =>
    obtain ⟨b, rfl⟩ := List.length_eq_one_iff.1 hn
    simp only [List.mem_singleton] at h
    subst h
    exact ⟨st, .refl _⟩
  | succ n ih =>
    match bs, hn with
    | false :: bs, hn => exact ⟨_, falseLoop c code (n + 1) pc _ ls slots feats hat⟩
    | true :: b' :: bs, hn =>
      rw [List.replicate_succ] at hat
      have h2 := At.append (a := [.op .and]) (b := List.replicate n (.op .and)) hat
      obtain ⟨st', hst⟩ := ih (b' :: bs) (by simpa using h) (by simpa using hn) (pc + 1) h2.2
      refine ⟨st', Steps.head (s' := ⟨pc + 1, (b' :: bs).map .bool ++ st, ls, slots, feats⟩) ?_ ?_⟩
      · rw [step0 h2.1 rfl]
        simp [exec, State.next, Op.operands]
      · simpa [Nat.add_assoc, Nat.add_comm 1 n] using hst

theorem agree_noVars (slots : List (Option Val)) : Agree noVars slots := by
  intro k v h
  simp [noVars] at h

/-- An expression outside of loops. -/
theorem run_expr {c : Ctx} {e : Expr} (hf : Fits e) {vs : List Val} (hm : meaning c e noVars = some vs) (hcl : Clean c e noVars)
    {code : List Cell} {pc : Nat} (hat : At code pc (compile e)) (slots : List (Option Val)) (feats : List Key) :
    ∃ slots', Steps c code ⟨pc, [], [], slots, feats⟩ ⟨pc + (compile e).length, vs, [], slots', feats⟩ := by
  obtain ⟨sl, _, h⟩ := right c e hf noVars vs hm hcl (fun _ _ => rfl) code pc [] [] slots feats hat (agree_noVars _)
  exact ⟨sl, by simpa using h⟩

/-- A condition that is false. -/
theorem run_false {c : Ctx} {e : Expr} (hf : Fits e) (hm : meaning c e noVars = some [.bool false]) (hcl : Stmt.Clean c (.pred e))
    {code : List Cell} {pc : Nat} (hat : At code pc (compile e)) (slots : List (Option Val)) (feats : List Key) :
    ∃ slots' st', Steps c code ⟨pc, [], [], slots, feats⟩ ⟨pc + (compile e).length, .bool false :: st', [], slots', feats⟩ := by
  cases e with
  | and e =>
    simp only [meaning, Option.bind_eq_some_iff] at hm
    obtain ⟨bs, ⟨ws, hws, hbs⟩, hm⟩ := hm
    split at hm
    · simp at hm
    · rename_i hne
      simp only [Option.some.injEq, List.cons.injEq, Val.bool.injEq, and_true] at hm
      simp only [compile] at hat
      obtain ⟨hat1, hat2⟩ := hat.append
      obtain ⟨sl, h1⟩ := run_expr (e := e) hf hws hcl hat1 slots feats
      have hn := bools_count c e noVars ws bs hws hbs
      have hpos : 0 < bs.length := List.length_pos_iff.2 hne
      obtain ⟨st', h2⟩ := andLoop_false c code bs (by simpa using hm) (operandCount e - 1) (by omega) _ [] [] sl feats hat2
      rw [List.append_nil, ← bools_map hbs] at h2
      refine ⟨sl, st', h1.trans ?_⟩
      simpa [compile, Nat.add_assoc] using h2
  | _ =>
    obtain ⟨sl, h⟩ := run_expr hf hm hcl hat slots feats
    exact ⟨sl, [], h⟩

/-- A condition that is true. -/
theorem run_true {c : Ctx} {e : Expr} (hf : Fits e) (hm : meaning c e noVars = some [.bool true]) (hcl : Stmt.Clean c (.pred e))
    {code : List Cell} {pc : Nat} (hat : At code pc (compile e)) (slots : List (Option Val)) (feats : List Key) :
    ∃ slots', Steps c code ⟨pc, [], [], slots, feats⟩ ⟨pc + (compile e).length, [.bool true], [], slots', feats⟩ := by
  refine run_expr hf hm ?_ hat slots feats
  cases e with
  | and e =>
    refine ⟨hcl, fun bs hbs b hb => ?_⟩
    simp only [meaning, hbs, Option.bind_some] at hm
    split at hm
    · simp at hm
    · simp only [Option.some.injEq, List.cons.injEq, Val.bool.injEq, and_true, List.all_eq_true] at hm
      exact hm b (List.dropLast_subset _ hb)
  | _ => exact hcl

/-- The keys of a run. -/
theorem run_feat {c : Ctx} (ss : List Stmt) (hfit : ∀ s ∈ ss, s.Fits) (hcl : CleanFeat c ss) {r : Option (List (List Str))}
    (hr : columns c ss = some r) {code : List Cell} {pc : Nat} (hat : At code pc (compileFeat ss)) (hend : code.length = pc + (compileFeat ss).length)
    (slots : List (Option Val)) (feats : List Key) :
    ∃ n ks, (∀ fuel, n ≤ fuel → runFeature c code fuel ⟨pc, [], [], slots, feats⟩ = .ok ks) ∧
      (r = none → ks = []) ∧
      (∀ cols, r = some cols → (∀ k, k ∈ ks ↔ ∃ f ∈ feats, ∃ xs, Choice xs cols ∧ k = f ++ xs) ∧ ks.length = feats.length * choices cols) := by
  induction ss generalizing pc slots feats r with
  | nil =>
    simp only [columns, Option.some.injEq] at hr
    subst hr
    refine ⟨1, feats, fun fuel hf => ?_, by simp, ?_⟩
    · obtain ⟨m, rfl⟩ : ∃ m, fuel = m + 1 := ⟨fuel - 1, by omega⟩
      rw [runFeature, if_pos (by simpa [compileFeat] using hend.symm)]
      rfl
    · intro cols hc
      injection hc with hc
      subst hc
      refine ⟨fun k => ⟨fun h => ⟨k, h, [], .nil, by simp⟩, ?_⟩, by simp [choices]⟩
      rintro ⟨f, hf, xs, hx, rfl⟩
      cases hx
      simpa using hf
  | cons s ss ih =>
    have hsplit : compileFeat (s :: ss) = s.compile ++ compileFeat ss := by simp [compileFeat]
    rw [hsplit] at hat hend
    obtain ⟨hat1, hat2⟩ := hat.append
    rw [List.length_append, ← Nat.add_assoc] at hend
    have hfs := hfit s (by simp)
    have hfr := fun s' (h : s' ∈ ss) => hfit s' (List.mem_cons_of_mem _ h)
    have hcs := hcl.1
    -- an instruction that adds a column
    have out : ∀ (e : Expr) (o : Op) (v : Val) (col : List Str),
        s.compile = compile e ++ [.op o] → o.operands = 0 → Fits e → Clean c e noVars → meaning c e noVars = some [v] →
        columns c [s] ≠ some none →
        (∀ pc slots feats, ∃ feats', exec c o 0 0 ⟨pc, [v], [], slots, feats⟩ = .ok (some ⟨pc + 1, [], [], slots, feats'⟩) ∧
          (∀ k, k ∈ feats' ↔ ∃ x ∈ col, ∃ f ∈ feats, k = f ++ [x]) ∧ feats'.length = col.length * feats.length) →
        columns c (s :: ss) = (columns c ss).map (Option.map (col :: ·)) →
        ∃ n ks, (∀ fuel, n ≤ fuel → runFeature c code fuel ⟨pc, [], [], slots, feats⟩ = .ok ks) ∧
          (r = none → ks = []) ∧
          (∀ cols, r = some cols → (∀ k, k ∈ ks ↔ ∃ f ∈ feats, ∃ xs, Choice xs cols ∧ k = f ++ xs) ∧ ks.length = feats.length * choices cols) := by
      intro e o v col hse ho hfe hce hme hns hex hcolumns
      rw [hcolumns, Option.map_eq_some_iff] at hr
      obtain ⟨r0, hr0, rfl⟩ := hr
      rw [hse] at hat1 hat2 hend
      obtain ⟨hatE, hatO⟩ := hat1.append
      obtain ⟨sl, h1⟩ := run_expr hfe hme hce hatE slots feats
      obtain ⟨feats', h2, hmem, hlen⟩ := hex (pc + (compile e).length) sl feats
      obtain ⟨n, ks, hrun, hnone, hsome⟩ := ih hfr (hcl.2 hns) hr0 hat2 hend sl feats'
      have hst : Steps c code ⟨pc, [], [], slots, feats⟩ ⟨pc + (compile e ++ [Cell.op o]).length, [], [], sl, feats'⟩ := by
        refine h1.trans (Steps.single ?_)
        rw [step0 (s := ⟨pc + (compile e).length, [v], [], sl, feats⟩) hatO ho, h2]
        simp [Nat.add_assoc]
      obtain ⟨m, hm⟩ := runFeature_steps hst
      refine ⟨m + n, ks, fun fuel hfuel => ?_, fun h => hnone (by simpa using h), fun cols hc => ?_⟩
      · rw [show fuel = m + (fuel - m) by omega, hm]
        exact hrun _ (by omega)
      · rw [Option.map_eq_some_iff] at hc
        obtain ⟨cols0, rfl, rfl⟩ := hc
        obtain ⟨hk, hl⟩ := hsome cols0 rfl
        refine ⟨fun k => ?_, ?_⟩
        · rw [hk]
          constructor
          · rintro ⟨f, hf, xs, hxs, rfl⟩
            obtain ⟨x, hx, f0, hf0, rfl⟩ := (hmem f).1 hf
            exact ⟨f0, hf0, x :: xs, .cons hx hxs, by simp⟩
          · rintro ⟨f, hf, xs, hxs, rfl⟩
            cases hxs with
            | cons hx hxs => exact ⟨_, (hmem _).2 ⟨_, hx, f, hf, rfl⟩, _, hxs, by simp⟩
        · rw [hl, hlen, choices, Nat.mul_comm col.length, Nat.mul_assoc]
    have single : ∀ (x : Str) (feats : List Key), (∀ k, k ∈ feats.map (fun k => k ++ [x]) ↔ ∃ y ∈ [x], ∃ f ∈ feats, k = f ++ [y]) ∧
        (feats.map (fun k => k ++ [x])).length = ([x] : List Str).length * feats.length := by
      intro x feats
      refine ⟨fun k => ?_, by simp⟩
      simp [eq_comm]
    cases s with
    | pred e =>
      simp only [columns] at hr
      simp only [Stmt.compile] at hat1 hat2 hend
      obtain ⟨hatE, hatO⟩ := hat1.append
      split at hr
      · rename_i hme
        obtain ⟨sl, h1⟩ := run_true hfs hme hcs hatE slots feats
        obtain ⟨n, ks, hrun, hrest⟩ := ih hfr (hcl.2 (by simp [columns, hme])) hr hat2 hend sl feats
        have hst : Steps c code ⟨pc, [], [], slots, feats⟩ ⟨pc + (compile e ++ [Cell.op .dieiffalse]).length, [], [], sl, feats⟩ := by
          refine h1.trans (Steps.single ?_)
          rw [step0 (s := ⟨pc + (compile e).length, [.bool true], [], sl, feats⟩) hatO rfl]
          simp [exec, State.next, Op.operands, Nat.add_assoc]
        obtain ⟨m, hm⟩ := runFeature_steps hst
        refine ⟨m + n, ks, fun fuel hfuel => ?_, hrest⟩
        rw [show fuel = m + (fuel - m) by omega, hm]
        exact hrun _ (by omega)
      · rename_i hme
        injection hr with hr
        subst hr
        obtain ⟨sl, st', h1⟩ := run_false hfs hme hcs hatE slots feats
        obtain ⟨n, hn⟩ := runFeature_die h1 (by
          rw [step0 (s := ⟨pc + (compile e).length, .bool false :: st', [], sl, feats⟩) hatO rfl]
          simp [exec])
        exact ⟨n, [], hn, by simp, by simp⟩
      · simp at hr
    | outStr e =>
      cases hme : meaning c e noVars with
      | none => simp [columns, hme] at hr
      | some vs =>
        match vs with
        | [.str x] =>
          exact out e .fcatstr (.str x) [x] rfl rfl hfs hcs hme (by simp [columns, hme])
            (fun pc slots feats => ⟨_, rfl, single x feats⟩) (by simp [columns, hme])
        | [] | .int _ :: _ | .bool _ :: _ | .strs _ :: _ | .wrd _ :: _ | .wrds _ :: _ | .str _ :: _ :: _ => simp [columns, hme] at hr
    | outBool e =>
      cases hme : meaning c e noVars with
      | none => simp [columns, hme] at hr
      | some vs =>
        match vs with
        | [.bool x] =>
          exact out e .fcatbool (.bool x) [if x then [116] else [102]] rfl rfl hfs hcs hme (by simp [columns, hme])
            (fun pc slots feats => ⟨_, rfl, single _ feats⟩) (by simp [columns, hme])
        | [] | .int _ :: _ | .str _ :: _ | .strs _ :: _ | .wrd _ :: _ | .wrds _ :: _ | .bool _ :: _ :: _ => simp [columns, hme] at hr
    | outInt e =>
      cases hme : meaning c e noVars with
      | none => simp [columns, hme] at hr
      | some vs =>
        match vs with
        | [.int x] =>
          exact out e .fcatint (.int x) [intStr x] rfl rfl hfs hcs hme (by simp [columns, hme])
            (fun pc slots feats => ⟨_, rfl, single _ feats⟩) (by simp [columns, hme])
        | [] | .bool _ :: _ | .str _ :: _ | .strs _ :: _ | .wrd _ :: _ | .wrds _ :: _ | .int _ :: _ :: _ => simp [columns, hme] at hr
    | outMany e =>
      cases hme : meaning c e noVars with
      | none => simp [columns, hme] at hr
      | some vs =>
        match vs with
        | [.strs []] =>
          simp only [columns, hme, Option.some.injEq] at hr
          subst hr
          simp only [Stmt.compile] at hat1
          obtain ⟨hatE, hatO⟩ := hat1.append
          obtain ⟨sl, h1⟩ := run_expr hfs hme hcs hatE slots feats
          obtain ⟨n, hn⟩ := runFeature_die h1 (by
            rw [step0 (s := ⟨pc + (compile e).length, [.strs []], [], sl, feats⟩) hatO rfl]
            simp [exec])
          exact ⟨n, [], hn, by simp, by simp⟩
        | [.strs (x :: xs)] =>
          refine out e .fcatstrarr (.strs (x :: xs)) (x :: xs) rfl rfl hfs hcs hme (by simp [columns, hme])
            (fun pc slots feats => ⟨(x :: xs).flatMap (fun y => feats.map (fun k => k ++ [y])), ?_, ?_, ?_⟩) (by simp [columns, hme])
          · simp [exec]
          · intro k
            simp [eq_comm]
          · rw [List.length_flatMap]
            simp only [List.length_map, List.map_const', List.sum_replicate_nat]
        | [] | .int _ :: _ | .bool _ :: _ | .str _ :: _ | .wrd _ :: _ | .wrds _ :: _ | .strs _ :: _ :: _ => simp [columns, hme] at hr
    | forEach k src body => exact absurd hfs id

/-! ### C58 -/

/-- **C58 (partial)**, one template: the keys are the ways to choose one string for each part (`<out>`: one, `<out-many>`: one of the list), none if a
condition is false or a list empty.  Partial: `Clean`. -/
theorem C58_template_partial (c : Ctx) (ss : List Stmt) (hfit : ∀ s ∈ ss, s.Fits) (hcl : CleanFeat c ss) (r : Option (List (List Str)))
    (hr : columns c ss = some r) (first : Str) :
    ∃ n ks, (∀ fuel, n ≤ fuel → runFeature c (compileFeat ss) fuel (.start [[first]]) = .ok ks) ∧
      (∀ k, k ∈ ks ↔ ∃ cols xs, r = some cols ∧ Choice xs cols ∧ k = first :: xs) ∧
      ks.length = (match r with | none => 0 | some cols => choices cols) := by
  obtain ⟨n, ks, h1, h2, h3⟩ := run_feat ss hfit hcl hr (code := compileFeat ss) (pc := 0) ⟨[], [], by simp, rfl⟩ (by simp) [] [[first]]
  refine ⟨n, ks, h1, ?_, ?_⟩
  · intro k
    cases r with
    | none => simp [h2 rfl]
    | some cols =>
      rw [(h3 cols rfl).1]
      simp
  · cases r with
    | none => simp [h2 rfl]
    | some cols => simpa using (h3 cols rfl).2

/-- The code of an expression has no instructions of templates. -/
theorem no_feature (e : Expr) : ∀ o, Cell.op o ∈ compile e → o.isFeature = false := by
  induction e with
  | cmp q a b iha ihb =>
    intro o ho
    simp only [compile, List.mem_append, List.mem_singleton, Cell.op.injEq] at ho
    rcases ho with (ho | ho) | rfl
    · exact iha o ho
    · exact ihb o ho
    · cases q <;> rfl
  | _ =>
    intro o ho
    simp only [compile, intByte, List.mem_append, List.mem_replicate, List.mem_cons, List.not_mem_nil, Cell.op.injEq, reduceCtorEq,
      or_false] at ho
    first
    | (subst ho; rfl)
    | (rcases ho with ho | rfl
       · rename_i ih; exact ih o ho
       · rfl)
    | (rcases ho with ho | ho
       · rename_i iha ihb; exact iha o ho
       · rename_i iha ihb; exact ihb o ho)
    | (rcases ho with (ho | ho) | rfl
       · rename_i iha ihb; exact iha o ho
       · rename_i iha ihb; exact ihb o ho
       · rfl)
    | (rcases ho with ho | ⟨_, rfl⟩
       · rename_i ih; exact ih o ho
       · rfl)
    | (rename_i iha ihb
       rcases ho with ((ho | rfl | rfl) | ho) | rfl
       · exact iha o ho
       · rfl
       · rfl
       · exact ihb o ho
       · rfl)

theorem runValue_steps {c : Ctx} {code : List Cell} (hcode : ∀ o, Cell.op o ∈ code → o.isFeature = false) {s s' : State} (h : Steps c code s s') :
    ∃ n, ∀ m, runValue c code (n + m) s = runValue c code m s' := by
  induction h with
  | refl => exact ⟨0, fun m => by rw [Nat.zero_add]⟩
  | @head s _ _ h1 _ ih =>
    obtain ⟨n, hn⟩ := ih
    refine ⟨n + 1, fun m => ?_⟩
    have := step_lt h1
    rw [show n + 1 + m = (n + m) + 1 by omega, runValue, if_neg (by omega), if_neg, h1]
    · exact hn m
    · split
      · rename_i o ho
        rw [hcode o (List.mem_of_getElem? ho)]
        simp
      · simp

theorem compile_ne_nil (e : Expr) : compile e ≠ [] := by
  induction e with
  | seq a b iha ihb => simp [compile, iha]
  | and e ih => simp [compile, ih]
  | or e ih => simp [compile, ih]
  | _ => simp [compile]

/-- A value (a global or the global predicate). -/
theorem run_value {c : Ctx} {e : Expr} (hf : Fits e) {v : Val} (hm : meaning c e noVars = some [v]) (hcl : Clean c e noVars) :
    ∃ n, ∀ fuel, n ≤ fuel → runValue c (compile e) fuel (.start []) = .ok v := by
  obtain ⟨sl, h⟩ := run_expr hf hm hcl (code := compile e) (pc := 0) ⟨[], [], by simp, rfl⟩ [] []
  obtain ⟨n, hn⟩ := runValue_steps (no_feature e) h
  refine ⟨n + 1, fun fuel hfu => ?_⟩
  rw [State.start, show fuel = n + ((fuel - n - 1) + 1) by omega, hn, runValue, if_pos (by simp)]

/-- A source file: condition, globals (variables and calls of macros), templates. -/
structure Source where
  condition : Option Expr
  globals : List Expr
  templates : List (List Stmt)

/-- Compiled. -/
def Source.compile (s : Source) : Spec :=
  ⟨(match s.condition with | none => [] | some e => VM.compile e), s.globals.map VM.compile, s.templates.map compileFeat⟩

/-- The values of the globals: each may use those before it. -/
inductive GlobalsAre (c : Ctx) : List Expr → List Val → List Val → Prop
  | nil {done} : GlobalsAre c [] done done
  | cons {e es v done all} : meaning { c with globals := done } e noVars = some [v] → Fits e → Clean { c with globals := done } e noVars →
      GlobalsAre c es (done ++ [v]) all → GlobalsAre c (e :: es) done all

theorem runGlobals_eq {c : Ctx} {es : List Expr} {done all : List Val} (h : GlobalsAre c es done all) :
    ∃ n, ∀ fuel, n ≤ fuel → runGlobals c fuel (es.map compile) done = .ok all := by
  induction h with
  | nil => exact ⟨0, fun fuel _ => rfl⟩
  | cons hm hf hcl _ ih =>
    obtain ⟨n, hn⟩ := ih
    obtain ⟨m, hv⟩ := run_value hf hm hcl
    refine ⟨m + n, fun fuel hfu => ?_⟩
    rw [List.map_cons, runGlobals, hv fuel (by omega)]
    exact hn fuel (by omega)

theorem runFeatures_eq {c : Ctx} (fs : List (List Stmt)) (hfit : ∀ f ∈ fs, ∀ s ∈ f, s.Fits) (hcl : ∀ f ∈ fs, CleanFeat c f)
    (hm : ∀ f ∈ fs, columns c f ≠ none) (i : Nat) :
    ∃ n ks, (∀ fuel, n ≤ fuel → runFeatures c fuel i (fs.map compileFeat) = .ok ks) ∧
      ∀ k, k ∈ ks ↔ ∃ j f cols xs, fs[j]? = some f ∧ columns c f = some (some cols) ∧ Choice xs cols ∧ k = [(i + j) % 256] :: xs := by
  induction fs generalizing i with
  | nil => exact ⟨0, [], fun fuel _ => rfl, by simp⟩
  | cons f fs ih =>
    obtain ⟨n, ks, h1, h2⟩ := ih (fun g hg => hfit g (by simp [hg])) (fun g hg => hcl g (by simp [hg])) (fun g hg => hm g (by simp [hg])) (i + 1)
    obtain ⟨r, hr⟩ := Option.ne_none_iff_exists'.1 (hm f (by simp))
    obtain ⟨n', ks', h1', h2', _⟩ := C58_template_partial c f (hfit f (by simp)) (hcl f (by simp)) r hr [i % 256]
    refine ⟨n + n', ks' ++ ks, fun fuel hfu => ?_, fun k => ?_⟩
    · rw [List.map_cons, runFeatures, h1' fuel (by omega)]
      simp only [Outcome.bind, h1 fuel (by omega)]
      rfl
    · rw [List.mem_append, h2, h2']
      constructor
      · rintro (⟨cols, xs, rfl, hx, rfl⟩ | ⟨j, g, cols, xs, hj, hc, hx, rfl⟩)
        · exact ⟨0, f, cols, xs, rfl, hr, hx, rfl⟩
        · exact ⟨j + 1, g, cols, xs, by simpa using hj, hc, hx, by rw [show i + (j + 1) = i + 1 + j by omega]⟩
      · rintro ⟨j, g, cols, xs, hj, hc, hx, rfl⟩
        cases j with
        | zero =>
          simp only [List.getElem?_cons_zero, Option.some.injEq] at hj
          subst hj
          rw [hr] at hc
          exact Or.inl ⟨cols, xs, by simpa using hc, hx, rfl⟩
        | succ j => exact Or.inr ⟨j, g, cols, xs, by simpa using hj, hc, hx, by rw [show i + (j + 1) = i + 1 + j by omega]⟩

/-- **C58 (partial)**: the features at a position are those of the templates, with the number of the template in front, if the condition is true there;
none if it is false.  Partial: `Clean`. -/
theorem C58_features_partial (c : Ctx) (src : Source) (gs : List Val) (hg : GlobalsAre c src.globals [] gs)
    (hfit : ∀ f ∈ src.templates, ∀ s ∈ f, s.Fits) (hcl : ∀ f ∈ src.templates, CleanFeat { c with globals := gs } f)
    (hm : ∀ f ∈ src.templates, columns { c with globals := gs } f ≠ none) (b : Bool)
    (hcond : ∀ e, src.condition = some e → Fits e ∧ Clean { c with globals := [] } e noVars ∧ meaning { c with globals := [] } e noVars = some [.bool b])
    (hb : src.condition = none → b = true) :
    ∃ n ks, (∀ fuel, n ≤ fuel → getFeatures c fuel src.compile = .ok ks) ∧
      ∀ k, k ∈ ks ↔ b = true ∧ ∃ j f cols xs, src.templates[j]? = some f ∧ columns { c with globals := gs } f = some (some cols) ∧ Choice xs cols ∧
        k = [j % 256] :: xs := by
  obtain ⟨n1, h1⟩ := runGlobals_eq hg
  obtain ⟨n2, ks, h2, h3⟩ := runFeatures_eq src.templates hfit hcl hm 0
  have rest : ∀ fuel, n1 + n2 ≤ fuel →
      ((runGlobals c fuel src.compile.globals []).bind (fun gs => runFeatures { c with globals := gs } fuel 0 src.compile.features)) = .ok ks := by
    intro fuel hfu
    simp only [Source.compile]
    rw [h1 fuel (by omega)]
    exact h2 fuel (by omega)
  simp only [Nat.zero_add] at h3
  cases hc : src.condition with
  | none =>
    refine ⟨n1 + n2, ks, fun fuel hfu => ?_, fun k => by rw [h3 k]; simp [hb hc]⟩
    simp only [getFeatures, rest fuel hfu]
    rw [if_pos (by simp [Source.compile, hc])]
  | some e =>
    obtain ⟨hfe, hce, hme⟩ := hcond e hc
    obtain ⟨n3, h4⟩ := run_value hfe hme hce
    refine ⟨n1 + n2 + n3, if b then ks else [], fun fuel hfu => ?_, fun k => ?_⟩
    · simp only [getFeatures, rest fuel (by omega)]
      have hgp : src.compile.globalPred = compile e := by simp [Source.compile, hc]
      rw [hgp, if_neg (compile_ne_nil e), h4 fuel (by omega)]
      cases b <;> rfl
    · cases b
      · simp
      · simpa using h3 k

/-! ### Addresses -/

/-- The place of a wordoid in the sentence: the wordoids of all tokens in a row. -/
def place (l : Tagged) (t : Nat) (w : Int) : Int := ((List.range t).map (wrdLen l)).sum + w

theorem place_succ (l : Tagged) (t : Nat) (w : Int) : place l (t + 1) w = place l t (w + wrdLen l t) := by
  unfold place
  rw [List.range_succ, List.map_append, List.sum_append]
  simp
  omega

theorem wrdLen_nonneg (l : Tagged) (t : Nat) : 0 ≤ wrdLen l t := by
  unfold wrdLen
  cases l[t]? with
  | none => simp
  | some x => simp

theorem adjDown_spec (l : Tagged) (t : Nat) (w : Int) :
    place l (adjDown l t w).1 (adjDown l t w).2 = place l t w ∧ (adjDown l t w).1 ≤ t ∧ (0 ≤ (adjDown l t w).2 ∨ (adjDown l t w).1 = 0) := by
  induction t generalizing w with
  | zero => simp [adjDown]
  | succ t ih =>
    unfold adjDown
    split
    · obtain ⟨h1, h2, h3⟩ := ih (w + wrdLen l t)
      exact ⟨by rw [h1, place_succ], by omega, h3⟩
    · exact ⟨rfl, Nat.le_refl _, by simp; omega⟩

theorem adjUp_spec (l : Tagged) (n t : Nat) (w : Int) (hw : 0 ≤ w ∨ t = 0) :
    place l (adjUp l n t w).1 (adjUp l n t w).2 = place l t w ∧ (adjUp l n t w).1 ≤ t + n ∧
      ((adjUp l n t w).2 < wrdLen l (adjUp l n t w).1 ∨ (adjUp l n t w).1 = t + n) ∧
      (0 ≤ (adjUp l n t w).2 ∨ (adjUp l n t w).1 = 0) := by
  induction n generalizing t w with
  | zero => simpa [adjUp] using hw
  | succ n ih =>
    unfold adjUp
    split
    · rename_i h
      obtain ⟨h1, h2, h3, h4⟩ := ih (t + 1) (w - wrdLen l t) (Or.inl (by omega))
      refine ⟨?_, by omega, ?_, h4⟩
      · rw [h1, place_succ]
        congr 1
        omega
      · rcases h3 with h3 | h3
        · exact Or.inl h3
        · exact Or.inr (by omega)
    · exact ⟨rfl, by simp, Or.inl (by simp; omega), by simpa using hw⟩

theorem place_mono (l : Tagged) (t t' : Nat) (h : t ≤ t') (w : Int) : place l t w ≤ place l t' w := by
  induction h with
  | refl => exact Int.le_refl _
  | step h ih =>
    rw [Nat.succ_eq_add_one, place_succ]
    refine Int.le_trans ih ?_
    have := wrdLen_nonneg l (by assumption)
    unfold place
    omega

/-- **C58**, `adjust`: the address keeps its place in the sentence and, if the sentence has a wordoid at that place, becomes the address of that
wordoid: a token of the sentence and one of its wordoids. -/
theorem C58_adjust (l : Tagged) (t : Nat) (w : Int) (ht : t < l.length) :
    ∃ (t' : Nat) (w' : Int), adjAddr l t w = ((t' : Int), w') ∧ t' < l.length ∧ place l t' w' = place l t w ∧
      (0 ≤ place l t w → place l t w < place l l.length 0 → 0 ≤ w' ∧ w' < wrdLen l t') := by
  have hc : (0 : Int) ≤ (t : Int) ∧ (t : Int) < l.length := by omega
  obtain ⟨d1, d2, d3⟩ := adjDown_spec l t w
  obtain ⟨u1, u2, u3, u4⟩ := adjUp_spec l (l.length - 1 - (adjDown l t w).1) (adjDown l t w).1 (adjDown l t w).2 (by omega)
  refine ⟨_, _, by simp only [adjAddr]; rw [if_pos hc, Int.toNat_natCast], by omega, by rw [u1, d1], fun h0 h1 => ?_⟩
  rw [← d1, ← u1] at h0 h1
  generalize adjUp l (l.length - 1 - (adjDown l t w).1) (adjDown l t w).1 (adjDown l t w).2 = u at *
  refine ⟨?_, ?_⟩
  · rcases u4 with h | h
    · exact h
    · rw [h] at h0
      simpa [place] using h0
  · rcases u3 with h | h
    · exact h
    · have e : l.length = u.1 + 1 := by omega
      rw [e, place_succ] at h1
      unfold place at h1
      omega

/-- **C58**, `clamp`: the address of a wordoid of the sentence stays, every other one becomes the nearest: a token of the sentence, a wordoid of that token. -/
theorem C58_clamp (l : Tagged) (t w : Int) (hl : l ≠ []) (hw : ∀ i < l.length, 0 < wrdLen l i) :
    ∃ (t' : Nat) (w' : Int), clampAddr l t w = ((t' : Int), w') ∧ t' < l.length ∧ 0 ≤ w' ∧ w' < wrdLen l t' ∧
      (0 ≤ t → t < l.length → (t' : Int) = t) ∧ (t < 0 → t' = 0) ∧ (l.length ≤ t → t' = l.length - 1) ∧
      (0 ≤ w → w < wrdLen l t' → w' = w) ∧ (w < 0 → w' = 0) ∧ (wrdLen l t' ≤ w → w' = wrdLen l t' - 1) := by
  have hpos : 0 < l.length := List.length_pos_iff.2 hl
  obtain ⟨t', ht'⟩ : ∃ t' : Nat, clamp 0 ((l.length : Int) - 1) t = t' := ⟨(clamp 0 ((l.length : Int) - 1) t).toNat, by unfold clamp; omega⟩
  have hcl : clampAddr l t w = ((t' : Int), clamp 0 (wrdLen l t' - 1) w) := by
    simp only [clampAddr, ht', Int.toNat_natCast]
  have hlt : t' < l.length := by unfold clamp at ht'; omega
  have := hw t' hlt
  refine ⟨t', _, hcl, hlt, ?_, ?_, ?_, ?_, ?_, ?_, ?_, ?_⟩ <;> unfold clamp at * <;> omega

/-- **C58**, `wordoid`: at the address of a wordoid of the sentence that wordoid; outside the marks for before and after; a word that is not tagged yet
is one wordoid, the mark for that. -/
theorem C58_wordoid (c : Ctx) (t w : Nat) (i j : Int) :
    (∀ a m, c.tagged[t]? = some (some a) → a.morphemes[w]? = some m → getWordoid c t w = m) ∧
    (c.tagged[t]? = some none → getWordoid c t 0 = ⟨"!UNTAGGED!".toList, ["!UT!".toList]⟩) ∧
    (i < 0 → getWordoid c i j = ⟨"!TOK_UNDERFLOW!".toList, ["!TUF!".toList]⟩) ∧
    ((c.tagged.length : Int) ≤ i → getWordoid c i j = ⟨"!TOK_OVERFLOW!".toList, ["!TOF!".toList]⟩) := by
  refine ⟨fun a m h1 h2 => ?_, fun h => ?_, fun h => ?_, fun h => ?_⟩
  · have h0 : ¬ ((t : Int) < 0) := by omega
    have h0' : ¬ ((w : Int) < 0) := by omega
    simp [getWordoid, h0, h0', h1, toWordoids, h2]
  · have h0 : ¬ ((t : Int) < 0) := by omega
    simp [getWordoid, h0, h, toWordoids, untaggedSentinel, sentinel]
  · simp [getWordoid, h, underflowWrd, sentinel]
  · have h0 : ¬ (i < 0) := by omega
    have h1 : c.tagged[i.toNat]? = none := List.getElem?_eq_none (by omega)
    simp [getWordoid, h0, h1, overflowWrd, sentinel]

/-- **C58**, tokens and the wordoids of a token. -/
theorem C58_token (c : Ctx) (t : Nat) (i : Int) :
    (∀ u, c.untagged[t]? = some u → getToken c t = u) ∧
    (∀ a, c.tagged[t]? = some (some a) → wordoidsAt c t = a.morphemes) ∧
    (c.tagged[t]? = some none → wordoidsAt c t = [⟨"!UNTAGGED!".toList, ["!UT!".toList]⟩]) ∧
    (i < 0 → (getToken c i).surface = "!SURF_UNDERFLOW!".toList ∧ wordoidsAt c i = [⟨"!TOK_UNDERFLOW!".toList, ["!TUF!".toList]⟩]) ∧
    ((c.untagged.length : Int) ≤ i → (getToken c i).surface = "!SURF_OVERFLOW!".toList) ∧
    ((c.tagged.length : Int) ≤ i → wordoidsAt c i = [⟨"!TOK_OVERFLOW!".toList, ["!TOF!".toList]⟩]) := by
  have h0 : ¬ ((t : Int) < 0) := by omega
  refine ⟨fun u h => ?_, fun a h => ?_, fun h => ?_, fun h => ?_, fun h => ?_, fun h => ?_⟩
  · simp [getToken, h0, h]
  · simp [wordoidsAt, h0, h, toWordoids]
  · simp [wordoidsAt, h0, h, toWordoids, untaggedSentinel, sentinel]
  · simp only [getToken, wordoidsAt, if_pos h]
    exact ⟨rfl, rfl⟩
  · have h0 : ¬ (i < 0) := by omega
    have h1 : c.untagged[i.toNat]? = none := List.getElem?_eq_none (by omega)
    simp only [getToken, if_neg h0, h1]
    rfl
  · have h0 : ¬ (i < 0) := by omega
    have h1 : c.tagged[i.toNat]? = none := List.getElem?_eq_none (by omega)
    simp only [wordoidsAt, if_neg h0, h1]
    rfl

end Verif.VM
