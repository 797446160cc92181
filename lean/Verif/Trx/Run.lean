import Verif.Trx.Spec
/-!
# Running the reader over a tree
-/
namespace Verif.Trx
open Verif.Tsx (Node isText)
open Verif.Pattern (Trans RSt CatItem)

theorem bind_assoc {α β γ : Type} (o : Outcome α) (f : α → Outcome β) (g : β → Outcome γ) : (o.bind f).bind g = o.bind fun x => (f x).bind g := by
  cases o <;> rfl

theorem ok_bind {α β : Type} (a : α) (f : α → Outcome β) : (Outcome.ok a).bind f = f a := rfl
theorem fail_bind {α β : Type} (f : α → Outcome β) : (Outcome.fail : Outcome α).bind f = .fail := rfl

variable {σ α : Type}

def runAll (h : Node → σ → Outcome σ) : List Node → σ → Outcome σ
  | [], s => .ok s
  | n :: r, s => if isText n then runAll h r s else (h n s).bind (runAll h r)

theorem runAll_append (h : Node → σ → Outcome σ) (a b : List Node) (s : σ) : runAll h (a ++ b) s = (runAll h a s).bind (runAll h b) := by
  induction a generalizing s with
  | nil => rfl
  | cons n a ih =>
    simp only [List.cons_append, runAll]
    cases isText n
    · simp only [Bool.false_eq_true, if_false, bind_assoc]
      exact congrArg _ (funext fun x => ih x)
    · simp only [if_true]; exact ih s

def foldO (g : α → σ → Outcome σ) : List α → σ → Outcome σ
  | [], s => .ok s
  | a :: r, s => (g a s).bind (foldO g r)

theorem eventsAll_append (a b : List Tree) : eventsAll (a ++ b) = eventsAll a ++ eventsAll b := by
  induction a with
  | nil => simp [eventsAll]
  | cons t a ih => simp [eventsAll, ih]

theorem text_isText (c : Bool) : isText ⟨if c then t!"#comment" else t!"#text", false, []⟩ = true := by cases c <;> decide

theorem elem_isText {x : Text} (hx : x ∉ [t!"#text", t!"#comment"]) (e : Bool) (a : List (Text × Text)) : isText ⟨x, e, a⟩ = false := by
  simp only [List.mem_cons, List.not_mem_nil, or_false, not_or] at hx
  simp [isText, hx.1, hx.2]

theorem run_blank (h : Node → σ → Outcome σ) {ts : List Tree} (hb : Blank ts) (s : σ) : runAll h (eventsAll ts) s = .ok s := by
  induction ts with
  | nil => rfl
  | cons t ts ih =>
    obtain ⟨c, rfl⟩ := hb t (by simp)
    simp only [eventsAll, Tree.events, List.singleton_append, runAll, text_isText, if_true]
    exact ih fun t ht => hb t (by simp [ht])

theorem run_empty {x : Text} (hx : x ∉ [t!"#text", t!"#comment"]) {p : List (Text × Text) → Prop} {t : Tree} (w : WEmpty x p t) (h : Node → σ → Outcome σ)
    (Q : σ → Prop) (hend : ∀ a s, Q s → h ⟨x, true, a⟩ s = .ok s) :
    ∃ a, p a ∧ ∀ s, (∀ s', h ⟨x, false, a⟩ s = .ok s' → Q s') → runAll h t.events s = h ⟨x, false, a⟩ s := by
  obtain ⟨a, short, kids, rfl, hp, hb, hs⟩ := w
  refine ⟨a, hp, fun s hq => ?_⟩
  simp only [Tree.events, runAll, elem_isText hx, Bool.false_eq_true, if_false]
  cases e : h ⟨x, false, a⟩ s with
  | ok s' =>
    simp only [ok_bind]
    cases short
    · simp only [Bool.false_eq_true, if_false, runAll_append, run_blank h hb, ok_bind, runAll, elem_isText hx]
      rw [hend a s' (hq s' e)]; rfl
    · rfl
  | _ => rfl

theorem run_elem {x : Text} (hx : x ∉ [t!"#text", t!"#comment"]) (h : Node → σ → Outcome σ) (a : List (Text × Text)) (kids : List Tree) (s : σ) :
    runAll h (Tree.elem x a false kids).events s = (h ⟨x, false, a⟩ s).bind fun s => (runAll h (eventsAll kids) s).bind fun s => h ⟨x, true, a⟩ s := by
  simp only [Tree.events, runAll, elem_isText hx, Bool.false_eq_true, if_false]
  refine congrArg _ (funext fun s' => ?_)
  rw [runAll_append]
  refine congrArg _ (funext fun s'' => ?_)
  simp only [runAll, elem_isText hx, Bool.false_eq_true, if_false]
  cases h ⟨x, true, a⟩ s'' <;> rfl

theorem run_rows {R : α → Tree → Prop} {h : Node → σ → Outcome σ} {g : α → σ → Outcome σ} (Inv : σ → Prop)
    (hR : ∀ a t s, R a t → Inv s → runAll h t.events s = g a s) (hI : ∀ a s s', Inv s → g a s = .ok s' → Inv s')
    {as : List α} {ts : List Tree} (w : Rows R as ts) (s : σ) (hs : Inv s) :
    runAll h (eventsAll ts) s = foldO g as s ∧ ∀ s', foldO g as s = .ok s' → Inv s' := by
  induction w generalizing s with
  | nil => exact ⟨rfl, fun s' e => by cases e; exact hs⟩
  | gap c _ ih =>
    simp only [eventsAll, Tree.events, List.singleton_append, runAll, text_isText, if_true]
    exact ih s hs
  | cons w _ ih =>
    rename_i a as t ts _
    simp only [eventsAll, runAll_append, hR _ _ s w hs, foldO]
    cases e : g a s with
    | ok s' => simp only [ok_bind]; exact ih s' (hI a s s' hs e)
    | fail => exact ⟨rfl, fun s' e => by cases e⟩
    | diverge => exact ⟨rfl, fun s' e => by cases e⟩
    | ub => exact ⟨rfl, fun s' e => by cases e⟩

/-! ### Names -/

theorem names_blank {ts : List Tree} (hb : Blank ts) {x : Text} (hx : x ∉ [t!"#text", t!"#comment"]) : ∀ n ∈ eventsAll ts, n.name ≠ x := by
  induction ts with
  | nil => intro n hn; simp [eventsAll] at hn
  | cons t ts ih =>
    obtain ⟨c, rfl⟩ := hb t (by simp)
    intro n hn
    simp only [eventsAll, Tree.events, List.singleton_append, List.mem_cons] at hn
    simp only [List.mem_cons, List.not_mem_nil, or_false, not_or] at hx
    rcases hn with rfl | hn
    · cases c
      · exact fun e => hx.1 e.symm
      · exact fun e => hx.2 e.symm
    · exact ih (fun t ht => hb t (by simp [ht])) n hn

theorem names_rows {R : α → Tree → Prop} {x : Text} (hx : x ∉ [t!"#text", t!"#comment"]) (hR : ∀ a t, R a t → ∀ n ∈ t.events, n.name ≠ x) {as : List α} {ts : List Tree}
    (w : Rows R as ts) : ∀ n ∈ eventsAll ts, n.name ≠ x := by
  induction w with
  | nil => intro n hn; simp [eventsAll] at hn
  | gap c _ ih =>
    intro n hn
    simp only [eventsAll, Tree.events, List.singleton_append, List.mem_cons] at hn
    simp only [List.mem_cons, List.not_mem_nil, or_false, not_or] at hx
    rcases hn with rfl | hn
    · cases c
      · exact fun e => hx.1 e.symm
      · exact fun e => hx.2 e.symm
    · exact ih n hn
  | cons w _ ih =>
    intro n hn
    simp only [eventsAll, List.mem_append] at hn
    rcases hn with hn | hn
    · exact hR _ _ w n hn
    · exact ih n hn

theorem names_elem {y : Text} {a : List (Text × Text)} {short : Bool} {kids : List Tree} {x : Text} (hy : y ≠ x) (hk : ∀ n ∈ eventsAll kids, n.name ≠ x) :
    ∀ n ∈ (Tree.elem y a short kids).events, n.name ≠ x := by
  intro n hn
  simp only [Tree.events, List.mem_cons] at hn
  rcases hn with rfl | hn
  · exact hy
  · cases short
    · simp only [Bool.false_eq_true, if_false, List.mem_append, List.mem_singleton] at hn
      rcases hn with hn | rfl
      · exact hk n hn
      · exact hy
    · simp at hn

theorem names_empty {y : Text} {p : List (Text × Text) → Prop} {t : Tree} (w : WEmpty y p t) {x : Text} (hy : y ≠ x) (hx : x ∉ [t!"#text", t!"#comment"]) :
    ∀ n ∈ t.events, n.name ≠ x := by
  obtain ⟨a, short, kids, rfl, -, hb, -⟩ := w
  exact names_elem hy (names_blank hb hx)

/-! ### Sections -/

theorem loop_run (x : Text) (h : Node → σ → Outcome σ) (more : σ → Bool) {evs : List Node} (hn : ∀ n ∈ evs, n.name ≠ x) (r : List Node) (s : σ) :
    sectionLoop x h more (evs ++ r) s = (runAll h evs s).bind (sectionLoop x h more r) := by
  induction evs generalizing s with
  | nil => rfl
  | cons n evs ih =>
    have ih := ih fun m hm => hn m (by simp [hm])
    simp only [List.cons_append, sectionLoop, runAll]
    cases isText n
    · simp only [Bool.false_eq_true, if_false, bind_assoc]
      refine congrArg _ (funext fun s' => ?_)
      rw [if_neg fun e => hn n (by simp) e.1]
      exact ih s'
    · simp only [if_true]; exact ih s

theorem nextTag_blank {ts : List Tree} (hb : Blank ts) (r : List Node) : nextTag (eventsAll ts ++ r) = nextTag r := by
  induction ts with
  | nil => rfl
  | cons t ts ih =>
    obtain ⟨c, rfl⟩ := hb t (by simp)
    simp only [eventsAll, Tree.events, List.cons_append, nextTag, text_isText, if_true]
    exact ih fun t ht => hb t (by simp [ht])

/-- A section `x` and what its handler makes of it. -/
structure SecOf (x : Text) (R : α → Tree → Prop) (h : Node → σ → Outcome σ) (more : σ → Bool) (g : α → σ → Outcome σ) (Inv : σ → Prop) : Prop where
  isName : x ∉ [t!"#text", t!"#comment"]
  row : ∀ a t s, R a t → Inv s → runAll h t.events s = g a s
  inv : ∀ a s s', Inv s → g a s = .ok s' → Inv s'
  names : ∀ a t, R a t → ∀ n ∈ t.events, n.name ≠ x
  done : ∀ a s, Inv s → h ⟨x, true, a⟩ s = .ok s ∧ more s = false

theorem next_sec {x : Text} {R : α → Tree → Prop} {as : List α} {ts : List Tree} (hx : x ∉ [t!"#text", t!"#comment"]) (w : Sec x R as ts) (rest : List Node) :
    ∃ n r, nextTag (eventsAll ts ++ rest) = .ok (n, r) ∧ n.name = x := by
  obtain ⟨a, kids, g, rfl, -, -⟩ := w
  simp only [eventsAll, Tree.events, List.cons_append, nextTag, elem_isText hx, Bool.false_eq_true, if_false]
  exact ⟨_, _, rfl, rfl⟩

theorem next_opt {x : Text} {R : α → Tree → Prop} {as : List α} {ts : List Tree} (hx : x ∉ [t!"#text", t!"#comment"]) (w : OptSec x R as ts) {rest : List Node} {b : Node} {rb : List Node}
    (hb : nextTag rest = .ok (b, rb)) : ∃ n r, nextTag (eventsAll ts ++ rest) = .ok (n, r) ∧ (n.name = x ∨ n = b) := by
  rcases w with ⟨-, rfl⟩ | w
  · exact ⟨b, rb, hb, .inr rfl⟩
  · obtain ⟨n, r, h, e⟩ := next_sec hx w rest
    exact ⟨n, r, h, .inl e⟩

theorem step_sec {x : Text} {R : α → Tree → Prop} {h : Node → σ → Outcome σ} {more : σ → Bool} {g : α → σ → Outcome σ} {Inv : σ → Prop} (S : SecOf x R h more g Inv)
    {as : List α} {ts : List Tree} (w : Sec x R as ts) {rest : List Node} {b : Node} {rb : List Node} (hb : nextTag rest = .ok (b, rb))
    {n : Node} {r : List Node} (hn : nextTag (eventsAll ts ++ rest) = .ok (n, r)) (init : TD → σ) (result : TD → σ → TD) (td : TD) (hi : Inv (init td)) :
    section? x h more init result (n, r, td) = (foldO g as (init td)).bind fun s => .ok (b, rb, result td s) := by
  obtain ⟨a, kids, gp, rfl, hr, hg⟩ := w
  simp only [eventsAll, Tree.events, List.cons_append, nextTag, elem_isText S.isName, Bool.false_eq_true, if_false, Outcome.ok.injEq, Prod.mk.injEq] at hn
  obtain ⟨rfl, rfl⟩ := hn
  obtain ⟨h1, h2⟩ := run_rows Inv S.row S.inv hr (init td) hi
  simp only [section?, if_true, List.append_assoc, List.singleton_append]
  rw [loop_run x h more (names_rows S.isName S.names hr), h1, bind_assoc]
  cases e : foldO g as (init td) with
  | ok s =>
    have hd := S.done a s (h2 s e)
    simp only [ok_bind, sectionLoop, elem_isText S.isName, Bool.false_eq_true, if_false, hd.1, and_self, hd.2, if_true, nextTag_blank hg, hb, List.cons_append]
  | fail => rfl
  | diverge => rfl
  | ub => rfl

theorem step_opt {x : Text} {R : α → Tree → Prop} {h : Node → σ → Outcome σ} {more : σ → Bool} {g : α → σ → Outcome σ} {Inv : σ → Prop} (S : SecOf x R h more g Inv)
    {as : List α} {ts : List Tree} (w : OptSec x R as ts) {rest : List Node} {b : Node} {rb : List Node} (hb : nextTag rest = .ok (b, rb)) (hbx : b.name ≠ x)
    {n : Node} {r : List Node} (hn : nextTag (eventsAll ts ++ rest) = .ok (n, r)) (init : TD → σ) (result : TD → σ → TD) (td : TD) (hi : Inv (init td)) (hres : result td (init td) = td) :
    section? x h more init result (n, r, td) = (foldO g as (init td)).bind fun s => .ok (b, rb, result td s) := by
  rcases w with ⟨rfl, rfl⟩ | w
  · simp only [eventsAll, List.nil_append, hb, Outcome.ok.injEq, Prod.mk.injEq] at hn
    obtain ⟨rfl, rfl⟩ := hn
    simp only [section?, if_neg hbx, foldO, ok_bind, hres]
  · exact step_sec S w hb hn init result td hi

end Verif.Trx
