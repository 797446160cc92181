import Verif.Trx.Maps
/-!
# C84: a file of rules is read as it is written
-/
namespace Verif.Trx
open Verif.Tsx (Node isText)
open Verif.Pattern (Trans RSt CatItem)

/-! ### The reader gives the tables of the file -/

theorem parse_writes (env : Env) {f : File} {root : Tree} (w : Writes f root) :
    parse env root.events =
      (foldO (catG env) f.cats (([], []), { attrs := fixedAttrs })).bind fun s1 =>
      (foldO (attrG env) f.attrs (([], []), s1.2)).bind fun s2 =>
      (foldO varG f.vars s2.2).bind fun s3 =>
      (foldO listG f.lists ([], s3)).bind fun s4 =>
      (foldO macroG f.macros (0, s4.2)).bind fun s5 =>
      (foldO (ruleG (s5.2.lookup env) s5.2.attrs) f.rules {}).bind fun s6 => .ok { s5.2 with rst := s6.rst } := by
  obtain ⟨x, a, g, t1, t2, t3, t4, t5, t6, rfl, hx, hg, w1, w2, w3, w4, w5, w6⟩ := w
  have hxt : x ∉ [t!"#text", t!"#comment"] := by
    simp only [List.mem_cons, List.not_mem_nil, or_false] at hx
    rcases hx with rfl | rfl | rfl <;> decide
  have hx' : ¬ (x ≠ t!"transfer" ∧ x ≠ t!"interchunk" ∧ x ≠ t!"postchunk") := by
    simp only [List.mem_cons, List.not_mem_nil, or_false] at hx
    rintro ⟨e1, e2, e3⟩
    rcases hx with h | h | h
    · exact e1 h
    · exact e2 h
    · exact e3 h
  have h7 : nextTag [(⟨x, true, a⟩ : Node)] = .ok (⟨x, true, a⟩, []) := by simp [nextTag, elem_isText hxt]
  obtain ⟨n6, r6, h6, e6⟩ := next_sec (by decide) w6 [⟨x, true, a⟩]
  obtain ⟨n5, r5, h5, e5⟩ := next_opt (by decide) w5 h6
  obtain ⟨n4, r4, h4, e4⟩ := next_opt (by decide) w4 h5
  obtain ⟨n3, r3, h3, e3⟩ := next_opt (by decide) w3 h4
  obtain ⟨n2, r2, h2, e2⟩ := next_opt (by decide) w2 h3
  obtain ⟨n1, r1, h1, e1⟩ := next_sec (by decide) w1 (eventsAll t2 ++ (eventsAll t3 ++ (eventsAll t4 ++ (eventsAll t5 ++ (eventsAll t6 ++ [⟨x, true, a⟩])))))
  have d6 : n6.name ∈ [t!"section-rules"] := by simp [e6]
  have d5 : n5.name ∈ [t!"section-def-macros", t!"section-rules"] := by
    rcases e5 with e | e
    · simp [e]
    · exact e ▸ List.mem_cons_of_mem _ d6
  have d4 : n4.name ∈ [t!"section-def-lists", t!"section-def-macros", t!"section-rules"] := by
    rcases e4 with e | e
    · simp [e]
    · exact e ▸ List.mem_cons_of_mem _ d5
  have d3 : n3.name ∈ [t!"section-def-vars", t!"section-def-lists", t!"section-def-macros", t!"section-rules"] := by
    rcases e3 with e | e
    · simp [e]
    · exact e ▸ List.mem_cons_of_mem _ d4
  have ne : ∀ {n : Node} {l : List Text} {y : Text}, n.name ∈ l → y ∉ l → n.name ≠ y := fun h1 h2 e => h2 (e ▸ h1)
  have hroot : parse env (Tree.elem x a false (g ++ t1 ++ t2 ++ t3 ++ t4 ++ t5 ++ t6)).events =
      ((section? t!"section-def-cats" (catNode env) (fun _ => false) (fun td => (([], []), td)) (fun _ s => s.2) (n1, r1, { attrs := fixedAttrs })).bind fun p =>
      (section? t!"section-def-attrs" (attrNode env) (fun _ => false) (fun td => (([], []), td)) (fun _ s => s.2) p).bind fun p =>
      (section? t!"section-def-vars" varNode (fun _ => false) id (fun _ s => s) p).bind fun p =>
      (section? t!"section-def-lists" listNode (fun _ => false) (fun td => ([], td)) (fun _ s => s.2) p).bind fun p =>
      (section? t!"section-def-macros" macroNode (fun _ => false) (fun td => (0, td)) (fun _ s => s.2) p).bind fun p =>
      (section? t!"section-rules" (ruleNode (p.2.2.lookup env) p.2.2.attrs) (fun s => s.inLet) (fun _ => {}) (fun td s => { td with rst := s.rst }) p).bind fun p =>
      .ok p.2.2) := by
    simp only [parse, Tree.events, Bool.false_eq_true, if_false, List.cons_append, nextTag, elem_isText hxt, ok_bind, if_neg hx']
    have : eventsAll (g ++ t1 ++ t2 ++ t3 ++ t4 ++ t5 ++ t6) ++ [⟨x, true, a⟩] =
        eventsAll g ++ (eventsAll t1 ++ (eventsAll t2 ++ (eventsAll t3 ++ (eventsAll t4 ++ (eventsAll t5 ++ (eventsAll t6 ++ [⟨x, true, a⟩])))))) := by
      simp [eventsAll_append]
    rw [this, nextTag_blank hg, h1]
    simp only [ok_bind]
    rw [if_neg (by simp [e1])]
  rw [hroot, step_sec (sec_cats env) w1 h2 h1 _ _ _ rfl, bind_assoc]
  refine congrArg _ (funext fun s1 => ?_)
  rw [ok_bind, step_opt (sec_attrs env) w2 h3 (ne d3 (by decide)) h2 _ _ _ rfl rfl, bind_assoc]
  refine congrArg _ (funext fun s2 => ?_)
  rw [ok_bind, step_opt sec_vars w3 h4 (ne d4 (by decide)) h3 _ _ _ trivial rfl, bind_assoc]
  refine congrArg _ (funext fun s3 => ?_)
  rw [ok_bind, step_opt sec_lists w4 h5 (ne d5 (by decide)) h4 _ _ _ trivial rfl, bind_assoc]
  refine congrArg _ (funext fun s4 => ?_)
  rw [ok_bind, step_opt sec_macros w5 h6 (ne d6 (by decide)) h5 _ _ _ trivial rfl, bind_assoc]
  refine congrArg _ (funext fun s5 => ?_)
  rw [ok_bind, step_sec (sec_rules _ _) w6 h7 h6 _ _ _ rfl, bind_assoc]
  rfl

/-! ### The folds -/

theorem fold_cats (env : Env) (cs : List (Text × List Item)) (td : TD) (s0 : Text × List CatItem) (h0 : cs = [] → s0 = ([], [])) :
    foldO (catG env) cs (s0, td) = .ok (([], []), { td with cats := td.cats ++ cs.map fun c => (c.1, c.2.map (Item.conv env)) }) := by
  induction cs generalizing td s0 with
  | nil => simp [foldO, h0 rfl]
  | cons c cs ih =>
    simp only [foldO, catG, ok_bind]
    rw [ih _ _ (fun _ => rfl)]
    simp

theorem fold_attrs (env : Env) (cs : List (Text × List Text)) (td : TD) (s0 : Text × List Text) (h0 : cs = [] → s0 = ([], [])) :
    foldO (attrG env) cs (s0, td) =
      if ∀ c ∈ cs, env.compiles (Regex.optimizeRegex c.2) = true then
        .ok (([], []), { td with attrs := (cs.map fun c => (c.1, Regex.optimizeRegex c.2)).foldl (fun m c => put m c.1 c.2) td.attrs })
      else .fail := by
  induction cs generalizing td s0 with
  | nil => simp [foldO, h0 rfl]
  | cons c cs ih =>
    simp only [foldO, attrG]
    by_cases hc : env.compiles (Regex.optimizeRegex c.2) = true
    · rw [if_pos hc, ok_bind, ih _ _ (fun _ => rfl)]
      by_cases hall : ∀ c ∈ cs, env.compiles (Regex.optimizeRegex c.2) = true
      · have hall' : ∀ c' ∈ c :: cs, env.compiles (Regex.optimizeRegex c'.2) = true := by
          intro c' hc'
          rcases List.mem_cons.1 hc' with rfl | hc'
          · exact hc
          · exact hall c' hc'
        rw [if_pos hall, if_pos hall']
        rfl
      · rw [if_neg hall, if_neg fun h => hall fun c' hc' => h c' (by simp [hc'])]
    · rw [if_neg hc, if_neg fun h => hc (h c (by simp))]
      rfl

theorem fold_vars (cs : List (Text × Text)) (td : TD) :
    foldO varG cs td = .ok { td with vars := cs.foldl (fun m c => put m c.1 c.2) td.vars } := by
  induction cs generalizing td with
  | nil => rfl
  | cons c cs ih => simp only [foldO, varG, ok_bind, ih, List.foldl_cons]

theorem fold_lists (cs : List (Text × List Text)) (td : TD) (s0 : Text) (h0 : cs = [] → s0 = []) :
    foldO listG cs (s0, td) = .ok ([], { td with lists := cs.foldl (fun m c => c.2.foldl (fun m v => listAdd m c.1 v) m) td.lists }) := by
  induction cs generalizing td s0 with
  | nil => simp [foldO, h0 rfl]
  | cons c cs ih =>
    simp only [foldO, listG, ok_bind]
    rw [ih _ _ (fun _ => rfl)]
    rfl

/-- The macros, numbered from `n`. -/
def numbered : Nat → List (Text × Tree) → List (Text × Nat)
  | _, [] => []
  | n, c :: cs => (c.1, n) :: numbered (n + 1) cs

theorem numbered_keys (n : Nat) (cs : List (Text × Tree)) : (numbered n cs).map (·.1) = cs.map (·.1) := by
  induction cs generalizing n with
  | nil => rfl
  | cons c cs ih => simp [numbered, ih]

theorem numbered_mem (n : Nat) (cs : List (Text × Tree)) (k : Text) (t : Tree) (h : (k, t) ∈ cs) : ∃ i, (k, n + i) ∈ numbered n cs ∧ (cs.map (·.2))[i]? = some t := by
  induction cs generalizing n with
  | nil => simp at h
  | cons c cs ih =>
    rcases List.mem_cons.1 h with rfl | h
    · exact ⟨0, by simp [numbered], by simp⟩
    · obtain ⟨i, h1, h2⟩ := ih (n + 1) h
      refine ⟨i + 1, ?_, by simpa using h2⟩
      simp only [numbered, List.mem_cons]
      right
      rw [show n + (i + 1) = n + 1 + i by omega]
      exact h1

theorem fold_macros (cs : List (Text × Tree)) (td : TD) (n : Nat) (hd : (keys td.macros).Nodup) :
    foldO macroG cs (n, td) =
      if (keys td.macros ++ cs.map (·.1)).Nodup then .ok (n + cs.length, { td with macros := td.macros ++ numbered n cs }) else .fail := by
  induction cs generalizing td n with
  | nil => simp [foldO, numbered, hd]
  | cons c cs ih =>
    simp only [foldO, macroG]
    by_cases hc : (find td.macros c.1).isSome = true
    · rw [if_pos hc, if_neg, fail_bind]
      intro h
      rw [List.nodup_append] at h
      exact h.2.2 _ ((find_isSome _ _).1 hc) _ (by simp) rfl
    · have hp : put td.macros c.1 n = td.macros ++ [(c.1, n)] := by simp [put, hc]
      rw [if_neg hc, ok_bind, ih _ _ (nodup_put hd _ _)]
      simp only [hp, keys, List.map_append, List.map_cons, List.map_nil, List.append_assoc, List.cons_append, List.nil_append, numbered, List.length_cons]
      rw [show n + 1 + cs.length = n + (cs.length + 1) by omega]

theorem pattern_eq (cats : Text → Option Trans) (s : RSt) (count : Nat) (ns : List Text) :
    Pattern.pattern cats s count ns = (Pattern.patternItems cats s 0 ns).map (endPattern count) := rfl

theorem fold_rules (cats : Text → Option Trans) (attrs : List (Text × Text)) (rs : List (List Text × Tree)) (s : RS) :
    (∀ rst, Pattern.procRules cats (s.count + 1) s.rst (rs.map (·.1)) = some rst → (∀ r ∈ rs, actOk attrs r.2 = true) →
      ∃ s', foldO (ruleG cats attrs) rs s = .ok s' ∧ s'.rst = rst) ∧
    (¬ ((Pattern.procRules cats (s.count + 1) s.rst (rs.map (·.1))).isSome = true ∧ ∀ r ∈ rs, actOk attrs r.2 = true) → foldO (ruleG cats attrs) rs s = .fail) := by
  induction rs generalizing s with
  | nil => simp [foldO, Pattern.procRules]
  | cons r rs ih =>
    simp only [foldO, ruleG, List.map_cons, Pattern.procRules, pattern_eq]
    cases hp : Pattern.patternItems cats s.rst 0 r.1 with
    | none => simp [fail_bind]
    | some x =>
      simp only [Option.map_some, Option.bind_some]
      by_cases ha : actOk attrs r.2 = true
      · rw [if_pos ha, ok_bind]
        have ih := ih { count := s.count + 1, state := x.2, rst := endPattern (s.count + 1) x, inLet := false }
        refine ⟨fun rst h1 h2 => ih.1 rst h1 fun r hr => h2 r (by simp [hr]), fun h => ih.2 fun h' => h ⟨h'.1, ?_⟩⟩
        intro r' hr'
        rcases List.mem_cons.1 hr' with rfl | hr'
        · exact ha
        · exact h'.2 r' hr'
      · rw [if_neg ha]
        exact ⟨fun _ _ h => absurd (h r (by simp)) ha, fun _ => rfl⟩

/-! ### The tree of the transfer programs -/

/-- The elements. -/
def elems (ts : List Tree) : List Tree := ts.filter (fun t => match t with | .elem .. => true | .text _ => false)

theorem children_eq (x : Text) (a : List (Text × Text)) (sh : Bool) (kids : List Tree) : (Tree.elem x a sh kids).children = elems kids := rfl

theorem elems_append (a b : List Tree) : elems (a ++ b) = elems a ++ elems b := List.filter_append ..

theorem elems_elem (x : Text) (a : List (Text × Text)) (sh : Bool) (kids ts : List Tree) : elems (.elem x a sh kids :: ts) = .elem x a sh kids :: elems ts := by
  simp [elems]

theorem elems_text (c : Bool) (ts : List Tree) : elems (.text c :: ts) = elems ts := by
  simp [elems]

theorem elems_blank {ts : List Tree} (hb : Blank ts) : elems ts = [] := by
  simp only [elems]
  rw [List.filter_eq_nil_iff]
  intro t ht
  obtain ⟨c, rfl⟩ := hb t ht
  simp

theorem macro_rows {ms : List (Text × Tree)} {ts : List Tree} (w : Rows WMacro ms ts) : elems ts = ms.map (·.2) := by
  induction w with
  | nil => rfl
  | gap c _ ih => rw [elems_text]; exact ih
  | cons w _ ih =>
    obtain ⟨h, a, sh, kids, rfl, -⟩ := w
    rw [elems_elem, ih, List.map_cons, ← h]

theorem rule_action {r : List Text × Tree} {t : Tree} (w : WRule r t) : t.children.find? (fun a => decide (a.name = t!"action")) = some r.2 := by
  obtain ⟨a, kids, rfl, -, g, p, g', g'', rfl, hg, hg', hg'', hp, hn, -, hne⟩ := w
  obtain ⟨pa, pk, rfl, -, -⟩ := hp
  rw [children_eq, elems_append, elems_append, elems_elem, elems_blank hg, elems_blank hg']
  obtain ⟨x, b, sh, k, he⟩ : ∃ x b sh k, r.2 = .elem x b sh k := by
    cases h : r.2 with
    | text => rw [h] at hne; simp [Tree.subs] at hne
    | elem x b sh k => exact ⟨x, b, sh, k, rfl⟩
  rw [he] at hn ⊢
  rw [elems_elem]
  simp only [List.nil_append, List.cons_append]
  rw [List.find?_cons_of_neg (by simp [Tree.name]), List.find?_cons_of_pos (by simpa using hn)]

theorem rule_rows {rs : List (List Text × Tree)} {ts : List Tree} (w : Rows WRule rs ts) :
    (elems ts).filterMap (fun r => r.children.find? (fun a => decide (a.name = t!"action"))) = rs.map (·.2) := by
  induction w with
  | nil => rfl
  | gap c _ ih => rw [elems_text]; exact ih
  | cons w _ ih =>
    have h := rule_action w
    obtain ⟨a, kids, rfl, -⟩ := w
    rw [elems_elem, List.map_cons, ← ih]
    exact List.filterMap_cons_some (f := fun r : Tree => r.children.find? (fun a => decide (a.name = t!"action"))) h

/-- A section of the root. -/
theorem elems_sec {α β : Type} {x : Text} {R : α → Tree → Prop} {as : List α} {ts : List Tree} (w : OptSec x R as ts) (y : Text) (F : Tree → List β) :
    (elems ts).flatMap (fun i => if i.name = y then F i else []) = [] ∨ x = y ∧ ∃ a kids, Rows R as kids ∧ (elems ts).flatMap (fun i => if i.name = y then F i else []) = F (.elem x a false kids) := by
  rcases w with ⟨-, rfl⟩ | ⟨a, kids, g, rfl, hr, hg⟩
  · left; rfl
  · rw [elems_elem, elems_blank hg]
    by_cases h : x = y
    · right; exact ⟨h, a, kids, hr, by simp [Tree.name, h]⟩
    · left; simp [Tree.name, h]

theorem elems_other {α β : Type} {x : Text} {R : α → Tree → Prop} {as : List α} {ts : List Tree} (w : OptSec x R as ts) {y : Text} (h : x ≠ y) (F : Tree → List β) :
    (elems ts).flatMap (fun i => if i.name = y then F i else []) = [] := by
  rcases elems_sec w y F with e | e
  · exact e
  · exact absurd e.1 h

theorem macroMap_writes {f : File} {root : Tree} (w : Writes f root) : macroMap root = f.macros.map (·.2) := by
  obtain ⟨x, a, g, t1, t2, t3, t4, t5, t6, rfl, hx, hg, w1, w2, w3, w4, w5, w6⟩ := w
  simp only [macroMap, children_eq, elems_append, elems_blank hg, List.nil_append, List.flatMap_append]
  rw [elems_other (.inr w1) (by decide), elems_other w2 (by decide), elems_other w3 (by decide), elems_other w4 (by decide), elems_other (.inr w6) (by decide)]
  rcases w5 with ⟨h1, rfl⟩ | ⟨b, kids, g', rfl, hr, hg'⟩
  · simp [h1, elems]
  · rw [elems_elem, elems_blank hg']
    simp [Tree.name, children_eq, macro_rows hr]

theorem ruleMap_writes {f : File} {root : Tree} (w : Writes f root) : ruleMap root = f.rules.map (·.2) := by
  obtain ⟨x, a, g, t1, t2, t3, t4, t5, t6, rfl, hx, hg, w1, w2, w3, w4, w5, w6⟩ := w
  simp only [ruleMap, children_eq, elems_append, elems_blank hg, List.nil_append, List.flatMap_append]
  rw [elems_other (.inr w1) (by decide), elems_other w2 (by decide), elems_other w3 (by decide), elems_other w4 (by decide), elems_other w5 (by decide)]
  obtain ⟨b, kids, g', rfl, hr, hg'⟩ := w6
  rw [elems_elem, elems_blank hg']
  have hname : (Tree.elem t!"section-rules" b false kids).name = t!"section-rules" := rfl
  simp only [List.flatMap_cons, List.flatMap_nil, hname, if_true, collectRules, children_eq, List.append_nil, List.nil_append]
  exact rule_rows hr

/-! ### The theorems -/

theorem last_map {β : Type} (l : List (Text × α)) (F : α → β) (k : Text) (r : β) : Last (l.map fun c => (c.1, F c.2)) k r ↔ ∃ v, Last l k v ∧ r = F v := by
  constructor
  · rintro ⟨pre, post, h, hp⟩
    obtain ⟨l1, l2, rfl, h1, h2⟩ := List.map_eq_append_iff.1 h
    obtain ⟨e, l3, rfl, h3, h4⟩ := List.map_eq_cons_iff.1 h2
    simp only [Prod.mk.injEq] at h3
    refine ⟨e.2, ⟨l1, l3, by rw [← h3.1], fun c hc => ?_⟩, h3.2.symm⟩
    have := hp (c.1, F c.2) (h4 ▸ List.mem_map.2 ⟨c, hc, rfl⟩)
    exact this
  · rintro ⟨v, ⟨pre, post, rfl, hp⟩, rfl⟩
    refine ⟨pre.map fun c => (c.1, F c.2), post.map fun c => (c.1, F c.2), by simp, ?_⟩
    intro e he
    obtain ⟨c, hc, rfl⟩ := List.mem_map.1 he
    exact hp c hc

theorem fixed_nodup : (keys fixedAttrs).Nodup := by decide

theorem has_part (f : File) (p : Text) :
    (find ((f.attrs.map fun c => (c.1, Regex.optimizeRegex c.2)).foldl (fun m c => put m c.1 c.2) fixedAttrs) p).isSome = true ↔ f.HasPart p := by
  have hk : ∀ (l m : List (Text × Text)), p ∈ keys (l.foldl (fun m c => put m c.1 c.2) m) ↔ p ∈ keys l ∨ p ∈ keys m := by
    intro l
    induction l with
    | nil => simp [keys]
    | cons e l ih =>
      intro m
      rw [List.foldl_cons, ih, keys_put]
      have hk : keys (e :: l) = e.1 :: keys l := rfl
      rw [hk, List.mem_cons]
      by_cases h : e.1 ∈ keys m
      · rw [if_pos h]
        constructor
        · rintro (h' | h') <;> simp [h']
        · rintro ((h' | h') | h')
          · right; rw [h']; exact h
          · exact .inl h'
          · exact .inr h'
      · rw [if_neg h]
        simp only [List.mem_append, List.mem_singleton]
        constructor
        · rintro (h' | h' | h') <;> simp [h']
        · rintro ((h' | h') | h') <;> simp [h']
  rw [find_isSome, hk]
  simp only [keys, List.map_map, File.HasPart]
  rfl

theorem clips_defined (f : File) (attrs : List (Text × Text)) (h : ∀ p, (find attrs p).isSome = true ↔ f.HasPart p) :
    (∀ r ∈ f.rules, actOk attrs r.2 = true) ↔ f.ClipsDefined := by
  simp only [File.ClipsDefined, actOk, List.all_eq_true]
  constructor
  · intro hall r hr s hs a sh kids e
    have := hall r hr s hs
    rw [e, clipOk_clip attrs rfl] at this
    simp only [partOk, Bool.and_eq_true, decide_eq_true_eq] at this
    exact ⟨this.1, (h _).1 this.2⟩
  · intro hall r hr s hs
    cases s with
    | text => rfl
    | elem x a sh kids =>
      by_cases hx : x = t!"clip"
      · rw [clipOk_clip attrs hx]
        have := hall r hr _ hs a sh kids (by rw [hx])
        simp only [partOk, Bool.and_eq_true, decide_eq_true_eq]
        exact ⟨this.1, (h _).2 this.2⟩
      · exact clipOk_other attrs hx a sh kids

theorem categories_eq (env : Env) (f : File) : (f.cats.map fun c => (c.1, c.2.map (Item.conv env))) = f.categories env := rfl

/-- The tables of a file. -/
def tables (env : Env) (f : File) : TD :=
  { cats := f.categories env, attrs := (f.attrs.map fun c => (c.1, Regex.optimizeRegex c.2)).foldl (fun m c => put m c.1 c.2) fixedAttrs,
    vars := f.vars.foldl (fun m c => put m c.1 c.2) [], lists := f.lists.foldl (fun m c => c.2.foldl (fun m v => listAdd m c.1 v) m) [], macros := numbered 0 f.macros }

theorem parse_tables (env : Env) {f : File} {root : Tree} (w : Writes f root) :
    (f.Good env → ∃ rst, parse env root.events = .ok { tables env f with rst := rst } ∧
        Pattern.compile env.minimize (f.categories env) (f.rules.map (·.1)) = some (env.minimize rst.trans)) ∧
      (¬ f.Good env → parse env root.events = .fail) := by
  rw [parse_writes env w, fold_cats env f.cats _ _ (fun _ => rfl), ok_bind, fold_attrs env f.attrs _ _ (fun _ => rfl), categories_eq]
  simp only [File.Good]
  by_cases ha : ∀ c ∈ f.attrs, env.compiles (Regex.optimizeRegex c.2) = true
  case neg =>
    rw [if_neg ha, fail_bind]
    exact ⟨fun h => absurd h.2.1 ha, fun _ => rfl⟩
  rw [if_pos ha, ok_bind, fold_vars, ok_bind, fold_lists f.lists _ _ (fun _ => rfl), ok_bind, fold_macros _ _ _ (by simp [keys])]
  simp only [keys, List.map_nil, List.nil_append]
  by_cases hm : (f.macros.map (·.1)).Nodup
  case neg =>
    rw [if_neg hm, fail_bind]
    exact ⟨fun h => absurd h.1 hm, fun _ => rfl⟩
  rw [if_pos hm, ok_bind]
  have hcl := clips_defined f _ (has_part f)
  have hr := fold_rules ((tables env f).lookup env) (tables env f).attrs f.rules {}
  have hcomp : Pattern.compile env.minimize (f.categories env) (f.rules.map (·.1)) =
      (Pattern.procRules ((tables env f).lookup env) 1 {} (f.rules.map (·.1))).map fun s => env.minimize s.trans := rfl
  refine ⟨fun h => ?_, fun h => ?_⟩
  · cases hp : Pattern.procRules ((tables env f).lookup env) 1 {} (f.rules.map (·.1)) with
    | none => rw [hcomp, hp] at h; simp at h
    | some rst =>
      obtain ⟨s', h1, h2⟩ := hr.1 rst hp (hcl.2 h.2.2.2)
      refine ⟨rst, ?_, by rw [hcomp, hp]; rfl⟩
      have : foldO (ruleG (TD.lookup env { tables env f with rst := ({} : RSt) }) { tables env f with rst := ({} : RSt) }.attrs) f.rules {} = .ok s' := h1
      show Outcome.bind (foldO (ruleG (TD.lookup env { tables env f with rst := ({} : RSt) }) { tables env f with rst := ({} : RSt) }.attrs) f.rules {}) _ = _
      rw [this, ok_bind, h2]
      rfl
  · have : foldO (ruleG (TD.lookup env { tables env f with rst := ({} : RSt) }) { tables env f with rst := ({} : RSt) }.attrs) f.rules {} = .fail := by
      refine hr.2 fun h' => h ⟨hm, ha, ?_, hcl.1 h'.2⟩
      rw [hcomp]
      simpa using h'.1
    show Outcome.bind (foldO (ruleG (TD.lookup env { tables env f with rst := ({} : RSt) }) { tables env f with rst := ({} : RSt) }.attrs) f.rules {}) _ = _
    rw [this]
    rfl

theorem builtin_find (k r : Text) : find fixedAttrs k = some r ↔ (k, r) ∈ builtin := by
  rw [← mem_find fixed_nodup]
  rfl

theorem tables_says (env : Env) {f : File} {root : Tree} (w : Writes f root) (hm : (f.macros.map (·.1)).Nodup) :
    Says f root (tables env f).attrs (tables env f).vars (tables env f).lists (tables env f).macros where
  vars k v := by
    simp only [tables]
    rw [find_fold]
    simp [find_nil]
  parts k r := by
    simp only [tables]
    rw [find_fold, last_map, builtin_find]
    simp only [List.map_map]
    rfl
  lists k v := by
    have := mem_listsFold f.lists (fun v => v) [] k v
    simp only [tables]
    rw [this]
    simp [find_nil]
  macros n t h := by
    obtain ⟨i, h1, h2⟩ := numbered_mem 0 f.macros n t h
    have hn : (keys (numbered 0 f.macros)).Nodup := by
      show ((numbered 0 f.macros).map (·.1)).Nodup
      rw [numbered_keys]; exact hm
    simp only [tables, macroOf, (mem_find hn n (0 + i)).1 h1, macroMap_writes w, Option.getD_some, Nat.zero_add]
    exact h2

/-- **C84 (compiler).**  A file that is written by the document type is accepted exactly if it is good; then the tables say what the file says, and the patterns are those of its rules
(for which C72 says what they match). -/
theorem C84_read (env : Env) (f : File) (root : Tree) (w : Writes f root) :
    (f.Good env → ∃ td, parse env root.events = .ok td ∧ Says f root td.attrs td.vars td.lists td.macros ∧
        Pattern.compile env.minimize (f.categories env) (f.rules.map (·.1)) = some (env.minimize td.rst.trans)) ∧
      (¬ f.Good env → parse env root.events = .fail) := by
  obtain ⟨h1, h2⟩ := parse_tables env w
  refine ⟨fun h => ?_, h2⟩
  obtain ⟨rst, h3, h4⟩ := h1 h
  exact ⟨_, h3, tables_says env w h.1, h4⟩

/-- **C84 (rules).**  For the number that the compiler gives to a pattern (the place of its rule, from 1) the transfer program runs the action of that rule. -/
theorem C84_rules (f : File) (root : Tree) (w : Writes f root) (k : Nat) (r : List Text × Tree) (h : f.rules[k]? = some r) : ruleOf root (k + 1) = some r.2 := by
  simp [ruleOf, ruleMap_writes w, h]

end Verif.Trx
