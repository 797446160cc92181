import Verif.Trx.Run
/-!
# The sections of a file of rules
-/
namespace Verif.Trx
open Verif.Tsx (Node isText)
open Verif.Pattern (Trans RSt CatItem)

theorem attrib_eq (n : Node) (k : Text) : n.attrib k = attr n.attrs k := rfl

/-! ### Categories -/

def Item.conv (env : Env) (i : Item) : CatItem := { lem := i.lem, tags := if i.tags = [] then [] else env.split i.tags, name := i.name }

def catG (env : Env) (c : Text × List Item) (s : (Text × List CatItem) × TD) : Outcome ((Text × List CatItem) × TD) :=
  .ok (([], []), { s.2 with cats := s.2.cats ++ [(c.1, c.2.map (Item.conv env))] })

theorem fold_items {β γ : Type} (f : α → β) (l : List α) (s : (Text × List β) × γ) :
    foldO (fun i s => Outcome.ok ((s.1.1, s.1.2 ++ [f i]), s.2)) l s = .ok ((s.1.1, s.1.2 ++ l.map f), s.2) := by
  induction l generalizing s with
  | nil => simp [foldO]
  | cons a l ih => simp [foldO, ok_bind, ih]

theorem sec_cats (env : Env) : SecOf t!"section-def-cats" WCat (catNode env) (fun _ => false) (catG env) (fun s => s.1.2 = []) where
  isName := by decide
  row c t s w hs := by
    obtain ⟨a, kids, rfl, ha, hk⟩ := w
    rw [run_elem (by decide)]
    have h1 : ∀ a s, catNode env ⟨t!"def-cat", false, a⟩ s = .ok ((attr a t!"n", s.1.2), s.2) := fun a s => by simp [catNode, attrib_eq]
    have h2 : ∀ a s, catNode env ⟨t!"def-cat", true, a⟩ s = .ok (([], []), { s.2 with cats := s.2.cats ++ [s.1] }) := fun a s => by simp [catNode]
    have hrow := run_rows (R := WItem) (h := catNode env) (g := fun i s => Outcome.ok ((s.1.1, s.1.2 ++ [i.conv env]), s.2)) (fun _ => True)
      (fun i t s w _ => by
        obtain ⟨b, hb, hr⟩ := run_empty (by decide) w (catNode env) (fun _ => True) (fun a s _ => by simp [catNode])
        rw [hr s (fun _ _ => trivial)]
        simp [catNode, attrib_eq, hb.1, hb.2.1, hb.2.2, Item.conv]) (fun _ _ _ _ _ => trivial) hk
    rw [h1, ok_bind, (hrow _ trivial).1, fold_items, ok_bind, h2]
    simp [catG, ha, hs]
  inv c s s' hs e := by cases e; rfl
  names c t w := by
    obtain ⟨a, kids, rfl, ha, hk⟩ := w
    exact names_elem (by decide) (names_rows (by decide) (fun i t w => names_empty w (by decide) (by decide)) hk)
  done a s hs := ⟨by simp [catNode], rfl⟩

/-! ### Parts -/

def attrG (env : Env) (c : Text × List Text) (s : (Text × List Text) × TD) : Outcome ((Text × List Text) × TD) :=
  if env.compiles (Regex.optimizeRegex c.2) then .ok (([], []), { s.2 with attrs := put s.2.attrs c.1 (Regex.optimizeRegex c.2) }) else .fail

theorem sec_attrs (env : Env) : SecOf t!"section-def-attrs" WAttr (attrNode env) (fun _ => false) (attrG env) (fun s => s.1.2 = []) where
  isName := by decide
  row c t s w hs := by
    obtain ⟨a, kids, rfl, ha, hk⟩ := w
    rw [run_elem (by decide)]
    have h1 : ∀ a s, attrNode env ⟨t!"def-attr", false, a⟩ s = .ok ((attr a t!"n", s.1.2), s.2) := fun a s => by simp [attrNode, attrib_eq]
    have h2 : ∀ a s, attrNode env ⟨t!"def-attr", true, a⟩ s =
        (if env.compiles (Regex.optimizeRegex s.1.2) then .ok (([], []), { s.2 with attrs := put s.2.attrs s.1.1 (Regex.optimizeRegex s.1.2) }) else .fail) := fun a s => by simp [attrNode]
    have hrow := run_rows (h := attrNode env) (g := fun (i : Text) s => Outcome.ok ((s.1.1, s.1.2 ++ [i]), s.2)) (fun _ => True)
      (fun i t s w _ => by
        obtain ⟨b, hb, hr⟩ := run_empty (by decide) w (attrNode env) (fun _ => True) (fun a s _ => by simp [attrNode])
        rw [hr s (fun _ _ => trivial)]
        simp [attrNode, attrib_eq, hb]) (fun _ _ _ _ _ => trivial) hk
    have hf := fold_items (γ := TD) (fun i : Text => i) c.2
    rw [h1, ok_bind, (hrow _ trivial).1, hf, ok_bind, h2]
    simp [attrG, ha, hs]
  inv c s s' hs e := by
    simp only [attrG] at e
    split at e <;> cases e
    rfl
  names c t w := by
    obtain ⟨a, kids, rfl, ha, hk⟩ := w
    exact names_elem (by decide) (names_rows (by decide) (fun i t w => names_empty w (by decide) (by decide)) hk)
  done a s hs := ⟨by simp [attrNode], rfl⟩

/-! ### Variables -/

def varG (c : Text × Text) (td : TD) : Outcome TD := .ok { td with vars := put td.vars c.1 c.2 }

theorem sec_vars : SecOf t!"section-def-vars" WVar varNode (fun _ => false) varG (fun _ => True) where
  isName := by decide
  row c t s w hs := by
    obtain ⟨b, hb, hr⟩ := run_empty (by decide) w varNode (fun _ => True) (fun a s _ => by simp [varNode])
    rw [hr s (fun _ _ => trivial)]
    simp [varNode, attrib_eq, hb.1, hb.2, varG]
  inv c s s' hs e := trivial
  names c t w := names_empty w (by decide) (by decide)
  done a s hs := ⟨by simp [varNode], rfl⟩

/-! ### Lists -/

def listG (c : Text × List Text) (s : Text × TD) : Outcome (Text × TD) :=
  .ok ([], { s.2 with lists := c.2.foldl (fun m v => listAdd m c.1 v) s.2.lists })

theorem fold_list (l : List Text) (k : Text) (td : TD) :
    foldO (fun (v : Text) (s : Text × TD) => Outcome.ok (s.1, { s.2 with lists := listAdd s.2.lists s.1 v })) l (k, td) =
      .ok (k, { td with lists := l.foldl (fun m v => listAdd m k v) td.lists }) := by
  induction l generalizing td with
  | nil => rfl
  | cons a l ih => simp [foldO, ok_bind, ih]

theorem sec_lists : SecOf t!"section-def-lists" WList listNode (fun _ => false) listG (fun _ => True) where
  isName := by decide
  row c t s w hs := by
    obtain ⟨a, kids, rfl, ha, hk⟩ := w
    rw [run_elem (by decide)]
    have h1 : ∀ a s, listNode ⟨t!"def-list", false, a⟩ s = .ok (attr a t!"n", s.2) := fun a s => by simp [listNode, attrib_eq]
    have h2 : ∀ a s, listNode ⟨t!"def-list", true, a⟩ s = .ok ([], s.2) := fun a s => by simp [listNode]
    have hrow := run_rows (h := listNode) (g := fun (v : Text) (s : Text × TD) => Outcome.ok (s.1, { s.2 with lists := listAdd s.2.lists s.1 v })) (fun _ => True)
      (fun i t s w _ => by
        obtain ⟨b, hb, hr⟩ := run_empty (by decide) w listNode (fun _ => True) (fun a s _ => by simp [listNode])
        rw [hr s (fun _ _ => trivial)]
        simp [listNode, attrib_eq, hb]) (fun _ _ _ _ _ => trivial) hk
    rw [h1, ok_bind, (hrow _ trivial).1, fold_list, ok_bind, h2]
    simp [listG, ha]
  inv c s s' hs e := trivial
  names c t w := by
    obtain ⟨a, kids, rfl, ha, hk⟩ := w
    exact names_elem (by decide) (names_rows (by decide) (fun i t w => names_empty w (by decide) (by decide)) hk)
  done a s hs := ⟨by simp [listNode], rfl⟩

/-! ### Macros -/

mutual
theorem names_subs {P : Text → Prop} (h1 : P t!"#text") (h2 : P t!"#comment") : (t : Tree) → (∀ s ∈ t.subs, P s.name) → ∀ n ∈ t.events, P n.name
  | .text c, _ => by
    intro n hn
    simp only [Tree.events, List.mem_singleton] at hn
    subst hn
    cases c
    · exact h1
    · exact h2
  | .elem x a short kids, h => by
    have hx : P x := h (.elem x a short kids) (by simp [Tree.subs])
    have ih := names_subsAll h1 h2 kids fun s hs => h s (by simp [Tree.subs, hs])
    intro n hn
    simp only [Tree.events, List.mem_cons] at hn
    rcases hn with rfl | hn
    · exact hx
    · cases short
      · simp only [Bool.false_eq_true, if_false, List.mem_append, List.mem_singleton] at hn
        rcases hn with hn | rfl
        · exact ih n hn
        · exact hx
      · simp at hn
theorem names_subsAll {P : Text → Prop} (h1 : P t!"#text") (h2 : P t!"#comment") : (ts : List Tree) → (∀ s ∈ subsAll ts, P s.name) → ∀ n ∈ eventsAll ts, P n.name
  | [], _ => by intro n hn; simp [eventsAll] at hn
  | t :: ts, h => by
    intro n hn
    simp only [eventsAll, List.mem_append] at hn
    rcases hn with hn | hn
    · exact names_subs h1 h2 t (fun s hs => h s (by simp [subsAll, hs])) n hn
    · exact names_subsAll h1 h2 ts (fun s hs => h s (by simp [subsAll, hs])) n hn
end

def macroG (c : Text × Tree) (s : Nat × TD) : Outcome (Nat × TD) :=
  if (find s.2.macros c.1).isSome then .fail else .ok (s.1 + 1, { s.2 with macros := put s.2.macros c.1 s.1 })

theorem macro_skip {evs : List Node} (h : ∀ n ∈ evs, n.name ≠ t!"def-macro") (s : Nat × TD) : runAll macroNode evs s = .ok s := by
  induction evs with
  | nil => rfl
  | cons n evs ih =>
    have ih := ih fun m hm => h m (by simp [hm])
    have : macroNode n s = .ok s := by simp only [macroNode]; rw [if_neg fun e => h n (by simp) e.1]
    simp only [runAll, this, ok_bind, ih, ite_self]

theorem sec_macros : SecOf t!"section-def-macros" WMacro macroNode (fun _ => false) macroG (fun _ => True) where
  isName := by decide
  row c t s w hs := by
    obtain ⟨-, a, short, kids, rfl, ha, -, hk⟩ := w
    have hnames := names_subsAll (P := fun x => x ≠ t!"def-macro") (by decide) (by decide) kids fun s hs => (hk s hs).1
    have h1 : macroNode ⟨t!"def-macro", false, a⟩ s = macroG c s := by simp [macroNode, macroG, attrib_eq, ha]
    have h2 : ∀ s, macroNode ⟨t!"def-macro", true, a⟩ s = .ok s := fun s => by simp [macroNode]
    simp only [Tree.events, runAll, elem_isText (show t!"def-macro" ∉ [t!"#text", t!"#comment"] by decide), Bool.false_eq_true, if_false, h1]
    cases e : macroG c s with
    | ok s' =>
      simp only [ok_bind]
      cases short
      · simp [runAll_append, macro_skip hnames, ok_bind, runAll, elem_isText (show t!"def-macro" ∉ [t!"#text", t!"#comment"] by decide), h2]
      · rfl
    | _ => rfl
  inv c s s' hs e := trivial
  names c t w := by
    obtain ⟨-, a, short, kids, rfl, ha, -, hk⟩ := w
    exact names_elem (by decide) (names_subsAll (P := fun x => x ≠ t!"section-def-macros") (by decide) (by decide) kids fun s hs => (hk s hs).2.1)
  done a s hs := ⟨by simp [macroNode], rfl⟩

/-! ### Rules -/

def partOk (attrs : List (Text × Text)) (a : List (Text × Text)) : Bool := decide (attr a t!"part" ≠ []) && (find attrs (attr a t!"part")).isSome

def clipOk (attrs : List (Text × Text)) : Tree → Bool
  | .elem x a _ _ => decide (x = t!"clip" → partOk attrs a = true)
  | .text _ => true

theorem clipOk_clip (attrs : List (Text × Text)) {x : Text} (hx : x = t!"clip") (a : List (Text × Text)) (short : Bool) (kids : List Tree) :
    clipOk attrs (.elem x a short kids) = partOk attrs a := by
  rw [Bool.eq_iff_iff]; simp [clipOk, hx]

theorem clipOk_other (attrs : List (Text × Text)) {x : Text} (hx : x ≠ t!"clip") (a : List (Text × Text)) (short : Bool) (kids : List Tree) :
    clipOk attrs (.elem x a short kids) = true := by
  simp [clipOk, hx]

theorem node_let (cats : Text → Option Trans) (attrs : List (Text × Text)) {x : Text} (a : List (Text × Text)) (short : Bool) (kids : List Tree) (s : RS) :
    ruleNode cats attrs ⟨x, false, a⟩ { s with inLet := true } = if clipOk attrs (.elem x a short kids) then .ok { s with inLet := false } else .fail := by
  have : checkClip attrs ⟨x, false, a⟩ = partOk attrs a := rfl
  simp only [ruleNode, if_true, Bool.false_eq_true, if_false, this]
  by_cases hx : x = t!"clip"
  · rw [clipOk_clip attrs hx]
    cases partOk attrs a <;> simp [hx]
  · rw [clipOk_other attrs hx]; simp [hx]

theorem node_end (cats : Text → Option Trans) (attrs : List (Text × Text)) {x : Text} (hx : x ∉ [t!"rule", t!"pattern", t!"pattern-item"]) {a : List (Text × Text)}
    {short : Bool} {kids : List Tree} (hc : clipOk attrs (.elem x a short kids) = true) (s : RS) :
    ruleNode cats attrs ⟨x, true, a⟩ { s with inLet := false } = .ok { s with inLet := false } := by
  have : checkClip attrs ⟨x, true, a⟩ = partOk attrs a := rfl
  simp only [List.mem_cons, List.not_mem_nil, or_false, not_or] at hx
  simp only [ruleNode, Bool.false_eq_true, if_false, hx.1, hx.2.1, hx.2.2, this]
  by_cases hl : x = t!"let"
  · simp [hl]
  · by_cases hx' : x = t!"clip"
    · rw [clipOk_clip attrs hx'] at hc
      rw [if_neg hl, if_pos hx', if_pos hc]
    · rw [if_neg hl, if_neg hx']

theorem node_start (cats : Text → Option Trans) (attrs : List (Text × Text)) {x : Text} (hx : x ∉ [t!"rule", t!"pattern", t!"pattern-item"]) (a : List (Text × Text))
    (short : Bool) (kids : List Tree) (s : RS) :
    ruleNode cats attrs ⟨x, false, a⟩ { s with inLet := false } = if clipOk attrs (.elem x a short kids) then .ok { s with inLet := decide (x = t!"let") } else .fail := by
  have : checkClip attrs ⟨x, false, a⟩ = partOk attrs a := rfl
  simp only [List.mem_cons, List.not_mem_nil, or_false, not_or] at hx
  simp only [ruleNode, Bool.false_eq_true, if_false, hx.1, hx.2.1, hx.2.2, this]
  by_cases hl : x = t!"let"
  · rw [clipOk_other attrs (fun e => absurd (hl.symm.trans e) (by decide)), if_pos hl, if_pos rfl]
    simp [hl]
  · by_cases hx' : x = t!"clip"
    · rw [clipOk_clip attrs hx', if_neg hl, if_pos hx']
      simp [hl]
    · rw [clipOk_other attrs hx', if_neg hl, if_neg hx', if_pos rfl]
      simp [hl]

theorem inAction_text {x : Text} {a : List (Text × Text)} {sh : Bool} {kids : List Tree} (h : InAction (.elem x a sh kids)) : x ∉ [t!"#text", t!"#comment"] ∧ x ∉ [t!"rule", t!"pattern", t!"pattern-item"] := by
  have := h.1
  simp only [Tree.name, List.mem_cons, List.not_mem_nil, or_false, not_or] at this ⊢
  exact ⟨this.2.2.2.2, this.1, this.2.1, this.2.2.1⟩

mutual
theorem act_tree (cats : Text → Option Trans) (attrs : List (Text × Text)) : (t : Tree) → (∀ s ∈ t.subs, InAction s) → (s : RS) → (b : Bool) →
    runAll (ruleNode cats attrs) t.events { s with inLet := b } =
      if t.subs.all (clipOk attrs) then .ok { s with inLet := b && t.subs.isEmpty } else .fail
  | .text c, _, s, b => by simp [Tree.events, runAll, text_isText, Tree.subs]
  | .elem x a short kids, h, s, b => by
    have h0 := h (.elem x a short kids) (by simp [Tree.subs])
    have hx := inAction_text h0
    have ih := act_list cats attrs kids fun s hs => h s (by simp [Tree.subs, hs])
    have hstart : runAll (ruleNode cats attrs) (Tree.elem x a short kids).events { s with inLet := b } =
        if clipOk attrs (.elem x a short kids) then runAll (ruleNode cats attrs) (if short then [] else eventsAll kids ++ [⟨x, true, a⟩]) { s with inLet := !b && decide (x = t!"let") }
        else .fail := by
      simp only [Tree.events, runAll, elem_isText hx.1, Bool.false_eq_true, if_false]
      cases b
      · rw [node_start cats attrs hx.2 a short kids s]
        split
        · simp [ok_bind]
        · rfl
      · rw [node_let cats attrs a short kids s]
        split
        · simp [ok_bind]
        · rfl
    rw [hstart]
    simp only [Tree.subs, List.all_cons, List.isEmpty_cons, Bool.and_false]
    cases hc : clipOk attrs (.elem x a short kids) with
    | false => simp
    | true =>
      simp only [if_true, Bool.true_and]
      cases short with
      | true =>
        have hk : kids = [] := h0.2.1
        subst hk
        have : x ≠ t!"let" := fun e => h0.2.2 e rfl
        simp [runAll, subsAll, this]
      | false =>
        simp only [Bool.false_eq_true, if_false, runAll_append, ih]
        by_cases hall : (subsAll kids).all (clipOk attrs) = true
        · simp only [if_pos hall, ok_bind, runAll, elem_isText hx.1, Bool.false_eq_true, if_false]
          have hin : (!b && decide (x = t!"let") && (subsAll kids).isEmpty) = false := by
            by_cases hl : x = t!"let"
            · have hne : subsAll kids ≠ [] := by
                have hk := h0.2.2 hl
                intro e
                apply hk
                simp only [Tree.children]
                rw [List.filter_eq_nil_iff]
                intro t ht
                cases t with
                | text => simp
                | elem y a' s' k' =>
                  exfalso
                  clear ih hstart h h0 hc hall hk
                  induction kids with
                  | nil => simp at ht
                  | cons u us ihu =>
                    simp only [subsAll, List.append_eq_nil_iff] at e
                    rcases List.mem_cons.1 ht with rfl | ht
                    · simp [Tree.subs] at e
                    · exact ihu e.2 ht
              cases hq : subsAll kids with
              | nil => exact absurd hq hne
              | cons => simp
            · simp [hl]
          rw [hin, node_end cats attrs hx.2 hc]
          rfl
        · simp only [if_neg hall]; rfl
theorem act_list (cats : Text → Option Trans) (attrs : List (Text × Text)) : (ts : List Tree) → (∀ s ∈ subsAll ts, InAction s) → (s : RS) → (b : Bool) →
    runAll (ruleNode cats attrs) (eventsAll ts) { s with inLet := b } =
      if (subsAll ts).all (clipOk attrs) then .ok { s with inLet := b && (subsAll ts).isEmpty } else .fail
  | [], _, s, b => by simp [eventsAll, runAll, subsAll]
  | t :: ts, h, s, b => by
    have h1 := act_tree cats attrs t (fun s hs => h s (by simp [subsAll, hs])) s b
    have h2 := act_list cats attrs ts (fun s hs => h s (by simp [subsAll, hs])) s
    simp only [eventsAll, runAll_append, h1, subsAll, List.all_append]
    cases t.subs.all (clipOk attrs) with
    | false => simp [fail_bind]
    | true =>
      simp only [if_true, ok_bind, Bool.true_and, h2]
      cases (subsAll ts).all (clipOk attrs)
      · simp
      · cases b <;> cases t.subs <;> simp
end

def itemG (cats : Text → Option Trans) (v : Text) (s : RS) : Outcome RS :=
  match Pattern.patternItem cats s.rst s.state v with
  | none => .fail
  | some x => .ok { s with rst := x.1, state := x.2 }

def patG (cats : Text → Option Trans) (ns : List Text) (s : RS) : Outcome RS :=
  match Pattern.patternItems cats s.rst s.state ns with
  | none => .fail
  | some x => .ok { s with rst := x.1, state := x.2 }

theorem fold_pattern (cats : Text → Option Trans) (ns : List Text) (s : RS) : foldO (itemG cats) ns s = patG cats ns s := by
  induction ns generalizing s with
  | nil => rfl
  | cons n ns ih =>
    simp only [foldO, itemG, patG, Pattern.patternItems]
    cases Pattern.patternItem cats s.rst s.state n with
    | none => rfl
    | some x => simp only [ok_bind, ih, Option.bind_some]; rfl

def actOk (attrs : List (Text × Text)) (t : Tree) : Bool := t.subs.all (clipOk attrs)

def ruleG (cats : Text → Option Trans) (attrs : List (Text × Text)) (c : List Text × Tree) (s : RS) : Outcome RS :=
  match Pattern.patternItems cats s.rst 0 c.1 with
  | none => .fail
  | some x => if actOk attrs c.2 then .ok { count := s.count + 1, state := x.2, rst := endPattern (s.count + 1) x, inLet := false } else .fail

theorem run_pattern (cats : Text → Option Trans) (attrs : List (Text × Text)) {ns : List Text} {t : Tree} (w : WPattern ns t) (s : RS) (hs : s.inLet = false) :
    runAll (ruleNode cats attrs) t.events s = match Pattern.patternItems cats s.rst 0 ns with
      | none => .fail
      | some x => .ok { s with rst := endPattern s.count x, state := x.2 } := by
  obtain ⟨a, kids, rfl, -, hk⟩ := w
  rw [run_elem (by decide)]
  have h1 : ∀ s : RS, s.inLet = false → ruleNode cats attrs ⟨t!"pattern", false, a⟩ s = .ok { s with state := 0 } := fun s hs => by simp [ruleNode, hs]
  have h2 : ∀ s : RS, s.inLet = false → ruleNode cats attrs ⟨t!"pattern", true, a⟩ s = .ok { s with rst := endPattern s.count (s.rst, s.state) } := fun s hs => by simp [ruleNode, hs]
  have hrow := run_rows (h := ruleNode cats attrs) (g := itemG cats) (fun s => s.inLet = false)
    (fun i t s w hs => by
      have hG : ∀ b : List (Text × Text), attr b t!"n" = i → ruleNode cats attrs ⟨t!"pattern-item", false, b⟩ s = itemG cats i s := fun b hb => by
        simp [ruleNode, hs, attrib_eq, hb, itemG]
        rfl
      obtain ⟨b, hb, hr⟩ := run_empty (by decide) w (ruleNode cats attrs) (fun s => s.inLet = false) (fun a s hs => by simp [ruleNode, hs])
      rw [hr s (fun s' e => by
        rw [hG b hb] at e
        simp only [itemG] at e
        split at e <;> cases e
        exact hs)]
      exact hG b hb) (fun v s s' hs e => by
        simp only [itemG] at e
        split at e <;> cases e
        exact hs) hk
  rw [h1 s hs, ok_bind, (hrow _ (by exact hs)).1, fold_pattern]
  simp only [patG]
  cases Pattern.patternItems cats s.rst 0 ns with
  | none => rfl
  | some x => simp only [ok_bind]; rw [h2 _ (by exact hs)]

theorem run_text_list (h : Node → σ → Outcome σ) {g : List Tree} (hg : Blank g) (r : List Tree) (s : σ) : runAll h (eventsAll (g ++ r)) s = runAll h (eventsAll r) s := by
  rw [eventsAll_append, runAll_append, run_blank h hg, ok_bind]

theorem sec_rules (cats : Text → Option Trans) (attrs : List (Text × Text)) :
    SecOf t!"section-rules" WRule (ruleNode cats attrs) (fun s => s.inLet) (ruleG cats attrs) (fun s => s.inLet = false) where
  isName := by decide
  row c t s w hs := by
    obtain ⟨a, kids, rfl, -, g, p, g', g'', rfl, hg, hg', hg'', hp, hn, hin, hne⟩ := w
    rw [run_elem (by decide)]
    have h1 : ∀ s : RS, s.inLet = false → ruleNode cats attrs ⟨t!"rule", false, a⟩ s = .ok { s with count := s.count + 1 } := fun s hs => by simp [ruleNode, hs]
    have h2 : ∀ s : RS, s.inLet = false → ruleNode cats attrs ⟨t!"rule", true, a⟩ s = .ok s := fun s hs => by simp [ruleNode, hs]
    rw [h1 s hs, ok_bind]
    rw [show g ++ p :: g' ++ c.2 :: g'' = g ++ ([p] ++ (g' ++ ([c.2] ++ g''))) by simp, run_text_list _ hg, eventsAll_append, runAll_append]
    simp only [eventsAll, List.append_nil]
    rw [run_pattern cats attrs hp _ (by exact hs)]
    simp only [ruleG]
    cases Pattern.patternItems cats s.rst 0 c.1 with
    | none => rfl
    | some x =>
      simp only [ok_bind]
      rw [run_text_list _ hg', eventsAll_append, runAll_append]
      simp only [eventsAll, List.append_nil]
      have ha := act_tree cats attrs c.2 hin { s with rst := endPattern (s.count + 1) x, state := x.2, count := s.count + 1 } false
      have hs' : ({ s with rst := endPattern (s.count + 1) x, state := x.2, count := s.count + 1 } : RS) =
          { ({ s with rst := endPattern (s.count + 1) x, state := x.2, count := s.count + 1 } : RS) with inLet := false } := by simp [hs]
      rw [hs', ha]
      by_cases hq : c.2.subs.all (clipOk attrs) = true
      · rw [if_pos hq, if_pos (show actOk attrs c.2 = true from hq)]
        simp only [ok_bind, run_blank _ hg'', Bool.false_and]
        exact h2 { count := s.count + 1, state := x.2, rst := endPattern (s.count + 1) x, inLet := false } rfl
      · rw [if_neg hq, if_neg (show ¬ actOk attrs c.2 = true from hq)]
        rfl
  inv c s s' hs e := by
    simp only [ruleG] at e
    split at e
    · cases e
    · split at e <;> cases e
      rfl
  names c t w := by
    obtain ⟨a, kids, rfl, -, g, p, g', g'', rfl, hg, hg', hg'', hp, hn, hin, hne⟩ := w
    refine names_elem (by decide) ?_
    intro n hm
    simp only [eventsAll_append, eventsAll, List.mem_append] at hm
    obtain ⟨pa, pk, rfl, -, hk⟩ := hp
    have hc : ∀ n ∈ c.2.events, n.name ≠ t!"section-rules" := names_subs (P := fun x => x ≠ t!"section-rules") (by decide) (by decide) c.2 fun s hs e => (hin s hs).1 (by simp [e])
    have hpp : ∀ n ∈ (Tree.elem t!"pattern" pa false pk).events, n.name ≠ t!"section-rules" :=
      names_elem (by decide) (names_rows (by decide) (fun i t w => names_empty w (by decide) (by decide)) hk)
    rcases hm with (hm | hm | hm) | hm | hm
    · exact names_blank hg (by decide) n hm
    · exact hpp n hm
    · exact names_blank hg' (by decide) n hm
    · exact hc n hm
    · exact names_blank hg'' (by decide) n hm
  done a s hs := ⟨by simp [ruleNode, hs], hs⟩

end Verif.Trx
