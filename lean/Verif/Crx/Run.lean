import Verif.Crx.Nodes
/-!
# The steps of the restorer
-/
namespace Verif.Crx
open Verif.Caps (Mark)

/-! ## Languages -/

/-- The labels of a rule. -/
def Full (u : List Lab) : Prop := ∃ x k, Parts x ∧ u = x ++ [.bound, .rule k]

/-- No two labels without input follow each other. -/
def NoSil : List Lab → Prop
  | [] => True
  | [_] => True
  | a :: b :: r => (a.input = none → b.input ≠ none) ∧ NoSil (b :: r)

theorem NoSil.cons {a : Lab} {r : List Lab} (ha : a.input ≠ none) (h : NoSil r) : NoSil (a :: r) := by
  cases r with
  | nil => trivial
  | cons b r => exact ⟨fun h => absurd h ha, h⟩

theorem NoSil.inner {w r : List Lab} (hw : ∀ l ∈ w, Inner l) (h : NoSil r) : NoSil (w ++ r) := by
  induction w with
  | nil => exact h
  | cons a w ih =>
    obtain ⟨x, rfl, _⟩ := hw a (by simp)
    exact .cons (by simp [Lab.input]) (ih (fun l hl => hw l (by simp [hl])))

theorem Parts.head {s : List Lab} (h : Parts s) (k : Nat) : ∃ b r, s ++ [.bound, .rule k] = b :: r ∧ b.input ≠ none := by
  cases h with
  | nil => exact ⟨.bound, [.rule k], rfl, by simp [Lab.input]⟩
  | @start s _ => exact ⟨.inp nullBoundary, s ++ [.bound, .rule k], rfl, by simp [Lab.input]⟩
  | @word w s _ h1 h2 _ =>
    cases w with
    | nil => exact absurd rfl h1
    | cons a w =>
      obtain ⟨x, rfl, _⟩ := h2 a (by simp)
      exact ⟨_, _, rfl, by simp [Lab.input]⟩

theorem Full.noSil {u : List Lab} (h : Full u) : NoSil u := by
  obtain ⟨x, k, hx, rfl⟩ := h
  induction hx with
  | nil => exact ⟨fun h => by simp [Lab.input] at h, trivial⟩
  | start _ ih => exact .cons (by simp [Lab.input]) ih
  | @word w s m h1 h2 h3 ih =>
    rw [List.append_assoc]
    refine .inner h2 (.cons (by simp [Lab.input]) (r := (Lab.mark m :: s) ++ [Lab.bound, Lab.rule k]) ?_)
    obtain ⟨b, r, h4, h5⟩ := h3.head k
    rw [h4] at ih
    rw [show (Lab.mark m :: s) ++ [Lab.bound, Lab.rule k] = Lab.mark m :: b :: r by rw [List.cons_append, h4]]
    exact ⟨fun _ => h5, ih⟩

theorem NoSil.mid {u v : List Lab} {a b : Lab} (h : NoSil (u ++ a :: b :: v)) (ha : a.input = none) : b.input ≠ none := by
  induction u with
  | nil => exact h.1 ha
  | cons c u ih =>
    apply ih
    cases u with
    | nil => exact h.2
    | cons d u => exact h.2

/-! ## Paths -/

section
variable {m : Trans} (hE : ∀ e ∈ m.edges, e.2.1 ≠ none)
include hE

theorem path_nil {p q : Nat} (h : Path m.edges p [] q) : p = q := by
  generalize hs : ([] : List Lab) = s at h
  cases h with
  | nil => rfl
  | eps h1 _ => exact absurd rfl (hE _ h1)
  | step _ _ => cases hs

theorem path_cons {p r : Nat} {a : Lab} {s : List Lab} : Path m.edges p (a :: s) r ↔ ∃ q, (p, some a, q) ∈ m.edges ∧ Path m.edges q s r := by
  constructor
  · intro h
    generalize hs : a :: s = s' at h
    cases h with
    | nil => cases hs
    | eps h1 _ => exact absurd rfl (hE _ h1)
    | step h1 h2 => injection hs with h3 h4; subst h3 h4; exact ⟨_, h1, h2⟩
  · rintro ⟨q, h1, h2⟩; exact .step h1 h2

theorem path_append {p r : Nat} {u v : List Lab} : Path m.edges p (u ++ v) r ↔ ∃ q, Path m.edges p u q ∧ Path m.edges q v r := by
  constructor
  · intro h
    induction u generalizing p with
    | nil => exact ⟨p, .nil p, h⟩
    | cons a u ih =>
      obtain ⟨q, h1, h2⟩ := (path_cons hE).1 h
      obtain ⟨q', h3, h4⟩ := ih h2
      exact ⟨q', .step h1 h3, h4⟩
  · rintro ⟨q, h1, h2⟩; exact h1.append h2

/-! ## Threads -/

def outs (u : List Lab) : List Lab := u.flatMap Lab.output

omit hE in
theorem outs_append (u v : List Lab) : outs (u ++ v) = outs u ++ outs v := List.flatMap_append ..

def Silent (v : List Lab) : Prop := ∀ a ∈ v, a.input = none

theorem mem_follow {f : Option Lab → Bool} {S : List Thread} {th : Thread} :
    th ∈ follow m f S ↔ ∃ th0 ∈ S, ∃ a, f (some a) = true ∧ (th0.1, some a, th.1) ∈ m.edges ∧ th.2 = th0.2 ++ a.output := by
  unfold follow
  simp only [List.mem_flatMap, List.mem_map, List.mem_filter, Bool.and_eq_true, decide_eq_true_eq]
  constructor
  · rintro ⟨th0, h0, e, ⟨h1, h2, h3⟩, rfl⟩
    obtain ⟨p, l, q⟩ := e
    cases l with
    | none => exact absurd rfl (hE _ h1)
    | some a => exact ⟨th0, h0, a, h3, by rw [← h2]; exact h1, by simp⟩
  · rintro ⟨th0, h0, a, h1, h2, h3⟩
    refine ⟨th0, h0, _, ⟨h2, rfl, h1⟩, ?_⟩
    obtain ⟨p, o⟩ := th
    simp at h3
    simp [h3]

theorem mem_closure {n : Nat} {S : List Thread} {th : Thread} :
    th ∈ closure m n S ↔ ∃ th0 ∈ S, ∃ v, v.length ≤ n ∧ Silent v ∧ Path m.edges th0.1 v th.1 ∧ th.2 = th0.2 ++ outs v := by
  induction n generalizing S with
  | zero =>
    unfold closure
    constructor
    · intro h; exact ⟨th, h, [], Nat.le_refl _, fun a ha => (by cases ha), .nil _, by simp [outs]⟩
    · rintro ⟨th0, h0, v, h1, _, h3, h4⟩
      have : v = [] := List.eq_nil_of_length_eq_zero (Nat.le_zero.1 h1)
      subst this
      have := path_nil hE h3
      have e : th = th0 := Prod.ext this.symm (by simpa [outs] using h4)
      rwa [e]
  | succ n ih =>
    unfold closure
    rw [List.mem_append, ih]
    constructor
    · rintro (h | ⟨th1, h1, v, h2, h3, h4, h5⟩)
      · exact ⟨th, h, [], Nat.zero_le _, fun a ha => (by cases ha), .nil _, by simp [outs]⟩
      · obtain ⟨th0, h6, a, h7, h8, h9⟩ := (mem_follow hE).1 h1
        refine ⟨th0, h6, a :: v, by simp; omega, ?_, .step h8 h4, by rw [h5, h9]; simp [outs]⟩
        intro b hb
        rcases List.mem_cons.1 hb with rfl | hb
        · simpa [silent] using h7
        · exact h3 b hb
    · rintro ⟨th0, h0, v, h1, h2, h3, h4⟩
      cases v with
      | nil =>
        have := path_nil hE h3
        have e : th = th0 := Prod.ext this.symm (by simpa [outs] using h4)
        exact Or.inl (by rwa [e])
      | cons a v =>
        obtain ⟨q, h5, h6⟩ := (path_cons hE).1 h3
        refine Or.inr ⟨(q, th0.2 ++ a.output), (mem_follow hE).2 ⟨th0, h0, a, ?_, h5, rfl⟩, v, by simp at h1; omega, fun b hb => h2 b (by simp [hb]), h6, ?_⟩
        · simpa [silent] using h2 a (by simp)
        · rw [h4]; simp [outs]

end

/-- What is needed of the automaton. -/
structure Good (m : Trans) : Prop where
  pos : 0 < m.next
  noEmpty : ∀ e ∈ m.edges, e.2.1 ≠ none
  useful : ∀ e ∈ m.edges, ∃ u v f, Path m.edges m.initial u e.1 ∧ Path m.edges e.2.2 v f ∧ f ∈ m.finals
  full : ∀ u, m.Accepts u → Full u

theorem Good.silent_short {m : Trans} (h : Good m) {p q : Nat} {v : List Lab} (hv : Silent v) (hp : Path m.edges p v q) : v.length ≤ m.next := by
  have : v.length ≤ 1 := by
    cases v with
    | nil => simp
    | cons a v =>
      cases v with
      | nil => simp
      | cons b v =>
        exfalso
        obtain ⟨p1, h1, h2⟩ := (path_cons h.noEmpty).1 hp
        obtain ⟨p2, h3, h4⟩ := (path_cons h.noEmpty).1 h2
        obtain ⟨u, _, _, h5, _⟩ := h.useful _ h1
        obtain ⟨_, w, f, _, h6, h7⟩ := h.useful _ h3
        have := (h.full (u ++ a :: b :: w) ⟨f, h7, h5.append (.step h1 (.step h3 h6))⟩).noSil.mid (hv a (by simp))
        exact this (hv b (by simp))
  have := h.pos
  omega

theorem Good.closure {m : Trans} (h : Good m) {S : List Thread} {th : Thread} :
    th ∈ closure m m.next S ↔ ∃ th0 ∈ S, ∃ v, Silent v ∧ Path m.edges th0.1 v th.1 ∧ th.2 = th0.2 ++ outs v := by
  rw [mem_closure h.noEmpty]
  constructor
  · rintro ⟨th0, h0, v, _, h1⟩; exact ⟨th0, h0, v, h1⟩
  · rintro ⟨th0, h0, v, h1, h2, h3⟩; exact ⟨th0, h0, v, h.silent_short h1 h2, h1, h2, h3⟩

section
variable {upper : Nat → Bool}

/-- The threads are the paths that read one of the sequences `E`. -/
def Thr (upper : Nat → Bool) (m : Trans) (E : List Rd → Prop) (S : List Thread) : Prop :=
  ∀ th, th ∈ S ↔ ∃ u es, Path m.edges m.initial u th.1 ∧ th.2 = outs u ∧ ReadsL upper u es ∧ E es

theorem Thr.congr {m : Trans} {E F : List Rd → Prop} {S : List Thread} (h : Thr upper m E S) (he : ∀ es, E es ↔ F es) : Thr upper m F S := by
  have : E = F := funext fun es => propext (he es)
  rwa [← this]

theorem readsL_silents {v : List Lab} (h : Silent v) : ReadsL upper v [] := by
  induction v with
  | nil => exact .nil
  | cons a v ih => exact .silent (h a (by simp)) (ih (fun b hb => h b (by simp [hb])))

theorem readsL_empty {v : List Lab} (h : ReadsL upper v []) : Silent v := by
  induction v with
  | nil => intro a ha; cases ha
  | cons a v ih =>
    cases h with
    | silent h1 h2 =>
      intro b hb
      rcases List.mem_cons.1 hb with rfl | hb
      · exact h1
      · exact ih h2 b hb

theorem readsL_snoc {u : List Lab} {es : List Rd} {e : Rd} (h : ReadsL upper u (es ++ [e])) :
    ∃ x a b v, u = x ++ a :: v ∧ ReadsL upper x es ∧ a.input = some b ∧ Can upper e b ∧ Silent v := by
  induction u generalizing es with
  | nil => rw [readsL_nil] at h; simp at h
  | cons c u ih =>
    generalize hz : es ++ [e] = z at h
    cases h with
    | silent h1 h2 =>
      subst hz
      obtain ⟨x, a, b, v, rfl, h3, h4⟩ := ih h2
      exact ⟨c :: x, a, b, v, rfl, .silent h1 h3, h4⟩
    | read h1 h2 h3 =>
      cases es with
      | nil =>
        simp only [List.nil_append, List.cons.injEq] at hz
        obtain ⟨rfl, rfl⟩ := hz
        exact ⟨[], c, _, u, rfl, .nil, h1, h2, readsL_empty h3⟩
      | cons d es =>
        simp only [List.cons_append, List.cons.injEq] at hz
        obtain ⟨rfl, rfl⟩ := hz
        obtain ⟨x, a, b, v, rfl, h4, h5⟩ := ih h3
        exact ⟨c :: x, a, b, v, rfl, .read h1 h2 h4, h5⟩

theorem Good.start {m : Trans} (h : Good m) : Thr upper m (fun es => es = []) (startState m) := by
  intro th
  unfold startState
  rw [h.closure]
  constructor
  · rintro ⟨th0, h0, v, h1, h2, h3⟩
    rw [List.mem_singleton.1 h0] at h2 h3
    exact ⟨v, [], h2, by simpa using h3, readsL_silents h1, rfl⟩
  · rintro ⟨u, es, h1, h2, h3, rfl⟩
    exact ⟨_, List.mem_singleton.2 rfl, u, readsL_empty h3, h1, by simpa using h2⟩

/-- The steps for something that is read. -/
def OnSyms (upper : Nat → Bool) (e : Rd) (as : List Sym) : Prop := ∀ a, a ∈ as ↔ Can upper e a

theorem follow_any {m : Trans} (h : Good m) {as : List Sym} {S : List Thread} {th : Thread} :
    th ∈ follow m (fun l => (l.bind Lab.input).any (fun a => decide (a ∈ as))) S ↔
      ∃ th0 ∈ S, ∃ a b, a.input = some b ∧ b ∈ as ∧ (th0.1, some a, th.1) ∈ m.edges ∧ th.2 = th0.2 ++ a.output := by
  rw [mem_follow h.noEmpty]
  constructor
  · rintro ⟨th0, h0, a, h1, h2⟩
    simp only [Option.bind_some, Option.any_eq_true, decide_eq_true_eq] at h1
    obtain ⟨b, h3, h4⟩ := h1
    exact ⟨th0, h0, a, b, h3, h4, h2⟩
  · rintro ⟨th0, h0, a, b, h1, h2, h3⟩
    exact ⟨th0, h0, a, by simp [h1, h2], h3⟩

theorem Good.step {m : Trans} (h : Good m) {E : List Rd → Prop} {S : List Thread} (hS : Thr upper m E S) {e : Rd} {as : List Sym} (ha : OnSyms upper e as) :
    Thr upper m (fun es => ∃ es0, E es0 ∧ es = es0 ++ [e]) (stepOn m as S) := by
  intro th
  unfold stepOn
  rw [h.closure]
  constructor
  · rintro ⟨th1, h1, v, h2, h3, h4⟩
    obtain ⟨th0, h5, a, b, h6, h7, h8, h9⟩ := (follow_any h).1 h1
    obtain ⟨u, es, h10, h11, h12, h13⟩ := (hS th0).1 h5
    refine ⟨u ++ a :: v, es ++ [e], h10.append (.step h8 h3), ?_, h12.append (.read h6 ((ha b).1 h7) (readsL_silents h2)), es, h13, rfl⟩
    rw [h4, h9, h11]
    simp [outs]
  · rintro ⟨u, _, h1, h2, h3, es, h4, rfl⟩
    obtain ⟨x, a, b, v, rfl, h5, h6, h7, h8⟩ := readsL_snoc h3
    obtain ⟨p, h9, h10⟩ := (path_append h.noEmpty).1 h1
    obtain ⟨q, h11, h12⟩ := (path_cons h.noEmpty).1 h10
    refine ⟨(q, outs x ++ a.output), (follow_any h).2 ⟨(p, outs x), (hS _).2 ⟨x, es, h9, rfl, h5, h4⟩, a, b, h6, (ha b).2 h7, h11, rfl⟩, v, h8, h12, ?_⟩
    rw [h2]
    simp [outs]

theorem Good.optional {m : Trans} (h : Good m) {E : List Rd → Prop} {S : List Thread} (hS : Thr upper m E S) {e : Rd} {b : Sym} (hb : ∀ a, Can upper e a ↔ a = b) :
    Thr upper m (fun es => E es ∨ ∃ es0, E es0 ∧ es = es0 ++ [e]) (stepOptional m b S) := by
  have hf : ∀ T, follow m (fun l => (l.bind Lab.input).any (fun c => decide (c = b))) T = follow m (fun l => (l.bind Lab.input).any (fun c => decide (c ∈ [b]))) T := by
    intro T; simp only [List.mem_singleton]
  have hs := h.step hS (as := [b]) (e := e) (fun a => by rw [List.mem_singleton, hb])
  intro th
  unfold stepOptional
  rw [h.closure]
  constructor
  · rintro ⟨th1, h1, v, h2, h3, h4⟩
    rcases List.mem_append.1 h1 with h1 | h1
    · obtain ⟨u, es, h10, h11, h12, h13⟩ := (hS th1).1 h1
      refine ⟨u ++ v, es, h10.append h3, by rw [h4, h11, outs_append], ?_, Or.inl h13⟩
      have := h12.append (readsL_silents (upper := upper) h2)
      rwa [List.append_nil] at this
    · rw [hf] at h1
      obtain ⟨u, es, h5, h6, h7, h8⟩ := (hs th).1 (by unfold stepOn; rw [h.closure]; exact ⟨th1, h1, v, h2, h3, h4⟩)
      exact ⟨u, es, h5, h6, h7, Or.inr h8⟩
  · rintro ⟨u, es, h1, h2, h3, h4 | h4⟩
    · exact ⟨th, List.mem_append_left _ ((hS th).2 ⟨u, es, h1, h2, h3, h4⟩), [], fun a ha => (by cases ha), .nil _, by simp [outs]⟩
    · have := (hs th).2 ⟨u, es, h1, h2, h3, h4⟩
      unfold stepOn at this
      rw [h.closure] at this
      obtain ⟨th1, h5, h6⟩ := this
      exact ⟨th1, List.mem_append_right _ (by rw [hf]; exact h5), h6⟩

theorem Thr.restart {m : Trans} (h : Good m) {E : List Rd → Prop} {S : List Thread} (hS : Thr upper m E S) :
    Thr upper m (fun es => es = [] ∨ E es) (S ++ startState m) := by
  intro th
  rw [List.mem_append, hS th, h.start (upper := upper) th]
  constructor
  · rintro (⟨u, es, h1, h2, h3, h4⟩ | ⟨u, es, h1, h2, h3, h4⟩)
    · exact ⟨u, es, h1, h2, h3, Or.inr h4⟩
    · exact ⟨u, es, h1, h2, h3, Or.inl h4⟩
  · rintro ⟨u, es, h1, h2, h3, h4 | h4⟩
    · exact Or.inr ⟨u, es, h1, h2, h3, h4⟩
    · exact Or.inl ⟨u, es, h1, h2, h3, h4⟩

/-! ## Words -/

def After (E : List Rd → Prop) (x : List Rd) (es : List Rd) : Prop := ∃ es0, E es0 ∧ es = es0 ++ x

theorem after_after (E : List Rd → Prop) (x y es : List Rd) : After (After E x) y es ↔ After E (x ++ y) es := by
  constructor
  · rintro ⟨_, ⟨es0, h, rfl⟩, rfl⟩; exact ⟨es0, h, by simp⟩
  · rintro ⟨es0, h, rfl⟩; exact ⟨_, ⟨es0, h, rfl⟩, by simp⟩

theorem onSep : OnSyms upper .sep [.chr '/'.toNat] := by intro a; simp [Can]

theorem onWb : OnSyms upper .wb [wordBoundary] := by intro a; simp [Can]

theorem stepTok_thr {m : Trans} (h : Good m) {E : List Rd → Prop} {S : List Thread} (hS : Thr upper m E S) (t : Tok) :
    Thr upper m (After E [.tok t]) (stepTok upper m t S) := by
  cases t with
  | tag t => exact h.step hS (fun a => by simp [Can])
  | chr c =>
    unfold stepTok stepChr
    by_cases h0 : c.toNat = 0
    · simp only [if_pos h0]
      exact h.step hS (fun a => by simp [Can, h0])
    · simp only [if_neg h0]
      split
      · rename_i hu
        exact h.step hS (fun a => by simp [Can, h0, hu])
      · rename_i hu
        exact h.step hS (fun a => by simp [Can, h0, hu])

theorem toks_thr {m : Trans} (h : Good m) (ts : List Tok) {E : List Rd → Prop} {S : List Thread} (hS : Thr upper m E S) :
    Thr upper m (After E (toks ts)) (ts.foldl (fun S t => stepTok upper m t S) S) := by
  induction ts generalizing E S with
  | nil => exact hS.congr (fun es => by simp [After, toks])
  | cons t ts ih =>
    rw [List.foldl_cons]
    exact (ih (stepTok_thr h hS t)).congr (fun es => after_after ..)

theorem caps_thr {m : Trans} (h : Good m) (t : Text) (hb : Basic t) (hs : '/' ∉ t) {E : List Rd → Prop} {S : List Thread} (hS : Thr upper m E S) :
    Thr upper m (After E (chars t)) ((t.flatMap units).foldl (fun S n => stepCaps upper m n S) S) := by
  rw [units_basic hb]
  clear hb
  induction t generalizing E S with
  | nil => exact hS.congr (fun es => by simp [After, chars])
  | cons c t ih =>
    rw [List.map_cons, List.foldl_cons]
    have hc : ¬ (c.toNat = '/'.toNat) := fun h => hs (by rw [toNat_inj h]; simp)
    have : Thr upper m (After E [.tok (.chr c)]) (stepCaps upper m c.toNat S) := by
      unfold stepCaps
      rw [if_neg hc]
      exact stepTok_thr h hS (.chr c)
    exact (ih (fun h => hs (by simp [h])) this).congr (fun es => after_after ..)

theorem units_append (s t : Text) : (s ++ t).flatMap units = s.flatMap units ++ t.flatMap units := List.flatMap_append ..

theorem word_thr {m : Trans} (h : Good m) {w : Seen} {caps form surf : Text} (hr : Reads w caps form surf) (hp : w.Plain) {E : List Rd → Prop} {S : List Thread}
    (hS : Thr upper m E S) : Thr upper m (After E w.events) (stepWord upper m S caps form surf) := by
  unfold stepWord
  obtain ⟨b1, b2, s1, _⟩ := hp.src
  rw [hr.caps, hr.form, hr.surf, List.append_assoc, units_append, units_append, List.foldl_append, List.foldl_append]
  dsimp only
  have h1 := caps_thr h w.srcSurf b1 (fun h => s1 (by simp [h])) hS
  have h2 := h.step h1 (onSep (upper := upper))
  have e : (t!"/".flatMap units).foldl (fun S n => stepCaps upper m n S) ((w.srcSurf.flatMap units).foldl (fun S n => stepCaps upper m n S) S) =
    stepOn m [.chr '/'.toNat] ((w.srcSurf.flatMap units).foldl (fun S n => stepCaps upper m n S) S) := rfl
  rw [e]
  have h3 := caps_thr h w.srcLem b2 (fun h => s1 (by simp [h])) h2
  have h4 := toks_thr h w.form (h.step h3 (onSep (upper := upper)))
  have h5 := toks_thr h w.surf (h.step h4 (onSep (upper := upper)))
  have h6 := h.step h5 (onWb (upper := upper))
  refine h6.congr ?_
  intro es
  unfold Seen.events Seen.body
  constructor
  · rintro ⟨_, ⟨_, ⟨_, ⟨_, ⟨_, ⟨_, ⟨_, ⟨es0, h, rfl⟩, rfl⟩, rfl⟩, rfl⟩, rfl⟩, rfl⟩, rfl⟩, rfl⟩
    exact ⟨es0, h, by simp⟩
  · rintro ⟨es0, h, rfl⟩
    exact ⟨_, ⟨_, ⟨_, ⟨_, ⟨_, ⟨_, ⟨_, ⟨es0, h, rfl⟩, rfl⟩, rfl⟩, rfl⟩, rfl⟩, rfl⟩, rfl⟩, by simp⟩

end
end Verif.Crx
