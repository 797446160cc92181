import Verif.Format.FmtProofs
import Verif.Format.Tokens
/-!
# C68: markup goes into blanks, text does not
-/
namespace Verif.Format

/-! ## The rule the lexer takes is the token of the specification -/

/-- The rules of the lexer with their ranks. -/
def Ranked (f : Fmt) (bol : Bool) (stack : List Rule) (L : List ((Re × Act) × List Nat)) : Prop :=
  L.map (·.1) = lexRules f bol stack ∧ L.Pairwise (fun x y => x.2 < y.2) ∧
  (∀ r a k, Active f bol stack r a k → ((r, a), k) ∈ L) ∧
  (∀ r a k, ((r, a), k) ∈ L → Active f bol stack r a k ∨ ∀ s, ¬ r.Matches s)

theorem Ranked.chosen {f : Fmt} {bol : Bool} {stack : List Rule} {L : List ((Re × Act) × List Nat)} (hL : Ranked f bol stack L)
    {input : Bytes} {n : Nat} {a : Act} (ht : Taken (lexRules f bol stack) input n a) : Chosen f bol stack input n a := by
  obtain ⟨h1, h2, h3, h4⟩ := hL
  obtain ⟨before, r, after, hr, hm, hb⟩ := ht.rule
  rw [← h1] at hr
  obtain ⟨L1, L2, rfl, e1, e2⟩ := List.map_eq_append_iff.1 hr
  obtain ⟨⟨ra, k⟩, L3, rfl, e3, e4⟩ := List.map_eq_cons_iff.1 e2
  simp only at e3
  subst e3
  refine ⟨ht.pos, ht.le, ⟨r, k, ?_, hm, ?_⟩, ?_⟩
  · rcases h4 r a k (by simp) with h | h
    · exact h
    · exact absurd hm (h _)
  · intro r' a' k' ha hk
    have hmem := h3 r' a' k' ha
    rcases List.mem_append.1 hmem with hx | hx
    · exact hb (r', a') (by rw [← e1]; exact List.mem_map.2 ⟨_, hx, rfl⟩)
    · exfalso
      rcases List.mem_cons.1 hx with hx | hx
      · simp only [Prod.mk.injEq] at hx
        rw [hx.2] at hk
        exact List.lt_irrefl _ hk
      · have h5 := (List.pairwise_append.1 h2).2.1
        have h6 := (List.pairwise_cons.1 h5).1 _ hx
        exact List.lt_irrefl _ (List.lt_trans h6 hk)
  · intro r' a' k' ha j hj hj2
    have hmem := h3 r' a' k' ha
    refine ht.longest (r', a') ?_ j hj hj2
    rw [← h1]
    exact List.mem_map.2 ⟨_, hmem, rfl⟩

/-- `insPrio` with the places in the file. -/
def insI (r : Rule × Nat) : List (Rule × Nat) → List (Rule × Nat)
  | [] => [r]
  | q :: qs => if r.1.prio ≤ q.1.prio then r :: q :: qs else q :: insI r qs

def sortI : List (Rule × Nat) → List (Rule × Nat)
  | [] => []
  | r :: rs => insI r (sortI rs)

theorem insI_fst (r : Rule × Nat) (l : List (Rule × Nat)) : (insI r l).map (·.1) = insPrio r.1 (l.map (·.1)) := by
  induction l with
  | nil => rfl
  | cons q l ih =>
    simp only [insI, List.map_cons, insPrio]
    split
    · simp
    · simp [ih]

theorem sortI_fst (l : List (Rule × Nat)) : (sortI l).map (·.1) = byPrio (l.map (·.1)) := by
  induction l with
  | nil => rfl
  | cons q l ih => simp [sortI, byPrio, insI_fst, ih]

theorem mem_insI (r q : Rule × Nat) (l : List (Rule × Nat)) : q ∈ insI r l ↔ q = r ∨ q ∈ l := by
  induction l with
  | nil => simp [insI]
  | cons x l ih =>
    simp only [insI]
    split
    · simp
    · simp only [List.mem_cons, ih]
      constructor
      · rintro (h | h | h) <;> simp [h]
      · rintro (h | h | h) <;> simp [h]

theorem mem_sortI (q : Rule × Nat) (l : List (Rule × Nat)) : q ∈ sortI l ↔ q ∈ l := by
  induction l with
  | nil => simp [sortI]
  | cons x l ih => simp [sortI, mem_insI, ih]

def Before (a b : Rule × Nat) : Prop := a.1.prio < b.1.prio ∨ (a.1.prio = b.1.prio ∧ a.2 < b.2)

theorem Before.trans {a b c : Rule × Nat} (h1 : Before a b) (h2 : Before b c) : Before a c := by
  unfold Before at *; omega

theorem insI_sorted (r : Rule × Nat) (l : List (Rule × Nat)) (hl : l.Pairwise Before) (hr : ∀ q ∈ l, r.2 < q.2) :
    (insI r l).Pairwise Before := by
  induction l with
  | nil => simp [insI]
  | cons q l ih =>
    simp only [insI]
    have hq := List.pairwise_cons.1 hl
    split
    · rename_i h
      have hrq : Before r q := by
        have := hr q (by simp)
        unfold Before; omega
      refine List.pairwise_cons.2 ⟨?_, hl⟩
      intro x hx
      rcases List.mem_cons.1 hx with rfl | hx
      · exact hrq
      · exact hrq.trans (hq.1 x hx)
    · rename_i h
      refine List.pairwise_cons.2 ⟨?_, ih hq.2 (fun x hx => hr x (by simp [hx]))⟩
      intro x hx
      rcases (mem_insI r x l).1 hx with rfl | hx
      · left; omega
      · exact hq.1 x hx

theorem sortI_sorted (l : List (Rule × Nat)) (hl : l.Pairwise (fun a b => a.2 < b.2)) : (sortI l).Pairwise Before := by
  induction l with
  | nil => simp [sortI]
  | cons r l ih =>
    have h := List.pairwise_cons.1 hl
    exact insI_sorted r _ (ih h.2) (fun q hq => h.1 q ((mem_sortI q l).1 hq))

theorem zipIdx_sorted {α : Type} (l : List α) (n : Nat) : (l.zipIdx n).Pairwise (fun a b => a.2 < b.2) := by
  induction l generalizing n with
  | nil => simp
  | cons a l ih =>
    rw [List.zipIdx_cons]
    refine List.pairwise_cons.2 ⟨?_, ih (n + 1)⟩
    intro q hq
    have := List.mem_zipIdx hq
    simp only
    omega

theorem mem_zip {α : Type} (l : List α) (x : α) (i : Nat) : (x, i) ∈ l.zipIdx ↔ l[i]? = some x := by
  rw [List.mem_zipIdx_iff_getElem?]

theorem lt_cons {a b : Nat} {x y : List Nat} : (a :: x) < (b :: y) ↔ a < b ∨ (a = b ∧ x < y) := by
  exact List.cons_lt_cons_iff

/-- The rules with their ranks. -/
def ranked (f : Fmt) (bol : Bool) : List Rule → List ((Re × Act) × List Nat)
  | [] => (f.rules.zipIdx.filter (fun q => !q.1.bol || bol)).map (fun q => ((q.1.re, .fmt q.1), [0, q.2])) ++
      f.repls.zipIdx.map (fun q => ((q.1.re, .repl q.1.table), [1, q.2])) ++
      [((.cls f.space, .space), [2]), ((.cls f.escape, .esc), [3]), ((.cls (fun b => decide (b ≠ 0x0A)), .other), [4])]
  | c :: _ => ((sortI f.rules.zipIdx).filter (fun q => decide (q.1.prio < c.prio) && (!q.1.bol || bol))).map
        (fun q => ((q.1.re, .fmt q.1), [0, q.1.prio, q.2])) ++
      [((c.fin.getD .none, .endComment), [1]), ((.cls (fun _ => true), .inComment), [2])]

theorem bol_iff (r : Rule) (bol : Bool) : (!r.bol || bol) = true ↔ (r.bol = true → bol = true) := by
  cases r.bol <;> cases bol <;> simp

theorem filter_fst {α : Type} (l : List (α × Nat)) (p : α → Bool) :
    (l.filter (fun q => p q.1)).map (·.1) = (l.map (·.1)).filter p := by
  induction l with
  | nil => rfl
  | cons q l ih => simp only [List.filter_cons, List.map_cons]; split <;> simp [ih]

theorem ranked_ok (f : Fmt) (bol : Bool) (stack : List Rule) : Ranked f bol stack (ranked f bol stack) := by
  cases stack with
  | nil =>
    refine ⟨?_, ?_, ?_, ?_⟩
    · simp only [ranked, lexRules, List.map_append, List.map_map, List.map_cons, List.map_nil]
      congr 2
      · have := filter_fst f.rules.zipIdx (fun r => !r.bol || bol)
        rw [List.zipIdx_map_fst] at this
        rw [← this, List.map_map]
        rfl
      · have h2 : f.repls.zipIdx.map (·.1) = f.repls := List.zipIdx_map_fst 0 f.repls
        have h3 := congrArg (List.map (fun p : Repl => (p.re, Act.repl p.table))) h2
        rw [List.map_map] at h3
        exact h3
    · simp only [ranked]
      refine List.pairwise_append.2 ⟨List.pairwise_append.2 ⟨?_, ?_, ?_⟩, ?_, ?_⟩
      · rw [List.pairwise_map]
        refine List.Pairwise.filter _ (List.Pairwise.imp ?_ (zipIdx_sorted f.rules 0))
        intro a b h
        simp [lt_cons, h]
      · rw [List.pairwise_map]
        refine List.Pairwise.imp ?_ (zipIdx_sorted f.repls 0)
        intro a b h
        simp [lt_cons, h]
      · intro x hx y hy
        obtain ⟨q, -, rfl⟩ := List.mem_map.1 hx
        obtain ⟨p, -, rfl⟩ := List.mem_map.1 hy
        simp [lt_cons]
      · simp [lt_cons]
      · intro x hx y hy
        simp only [List.mem_cons, List.not_mem_nil, or_false] at hy
        rcases List.mem_append.1 hx with hx | hx
        · obtain ⟨q, -, rfl⟩ := List.mem_map.1 hx
          rcases hy with rfl | rfl | rfl <;> simp [lt_cons]
        · obtain ⟨q, -, rfl⟩ := List.mem_map.1 hx
          rcases hy with rfl | rfl | rfl <;> simp [lt_cons]
    · intro r a k h
      simp only [ranked, List.mem_append, List.mem_map, List.mem_filter]
      cases h with
      | rule i r h1 h2 => exact .inl (.inl ⟨(r, i), ⟨(mem_zip _ _ _).2 h1, (bol_iff r bol).2 h2⟩, rfl⟩)
      | repl i p h1 => exact .inl (.inr ⟨(p, i), (mem_zip _ _ _).2 h1, rfl⟩)
      | space => right; simp
      | esc => right; simp
      | other => right; simp
    · intro r a k h
      left
      simp only [ranked, List.mem_append, List.mem_map, List.mem_filter] at h
      rcases h with (⟨⟨q, i⟩, ⟨h1, h2⟩, h3⟩ | ⟨⟨q, i⟩, h1, h3⟩) | h
      · cases h3
        exact .rule i q ((mem_zip _ _ _).1 h1) ((bol_iff q bol).1 h2)
      · cases h3
        exact .repl i q ((mem_zip _ _ _).1 h1)
      · simp only [List.mem_cons, List.not_mem_nil, or_false, Prod.mk.injEq] at h
        rcases h with ⟨⟨rfl, rfl⟩, rfl⟩ | ⟨⟨rfl, rfl⟩, rfl⟩ | ⟨⟨rfl, rfl⟩, rfl⟩
        · exact .space
        · exact .esc
        · exact .other
  | cons c st =>
    refine ⟨?_, ?_, ?_, ?_⟩
    · simp only [ranked, lexRules, List.map_append, List.map_map, List.map_cons, List.map_nil]
      congr 1
      have := filter_fst (sortI f.rules.zipIdx) (fun r => decide (r.prio < c.prio) && (!r.bol || bol))
      rw [sortI_fst, List.zipIdx_map_fst] at this
      rw [← this, List.map_map]
      rfl
    · simp only [ranked]
      refine List.pairwise_append.2 ⟨?_, ?_, ?_⟩
      · rw [List.pairwise_map]
        refine List.Pairwise.filter _ (List.Pairwise.imp ?_ (sortI_sorted _ (zipIdx_sorted f.rules 0)))
        intro a b h
        unfold Before at h
        simp [lt_cons, h]
      · simp [lt_cons]
      · intro x hx y hy
        simp only [List.mem_cons, List.not_mem_nil, or_false] at hy
        obtain ⟨q, -, rfl⟩ := List.mem_map.1 hx
        rcases hy with rfl | rfl <;> simp [lt_cons]
    · intro r a k h
      simp only [ranked, List.mem_append, List.mem_map, List.mem_filter]
      cases h with
      | inner i r _ _ h1 h2 h3 =>
        refine .inl ⟨(r, i), ⟨(mem_sortI _ _).2 ((mem_zip _ _ _).2 h1), ?_⟩, rfl⟩
        rw [(bol_iff r bol).2 h2, decide_eq_true h3]; rfl
      | fin _ _ t h1 => right; simp [h1]
      | any => right; simp
    · intro r a k h
      simp only [ranked, List.mem_append, List.mem_map, List.mem_filter] at h
      rcases h with ⟨⟨q, i⟩, ⟨h1, h2⟩, h3⟩ | h
      · cases h3
        simp only [Bool.and_eq_true, decide_eq_true_eq] at h2
        exact .inl (.inner i q c st ((mem_zip _ _ _).1 ((mem_sortI _ _).1 h1)) ((bol_iff q bol).1 h2.2) h2.1)
      · simp only [List.mem_cons, List.not_mem_nil, or_false, Prod.mk.injEq] at h
        rcases h with ⟨⟨rfl, rfl⟩, rfl⟩ | ⟨⟨rfl, rfl⟩, rfl⟩
        · cases hc : c.fin with
          | none => right; intro s; exact Re.matches_none s
          | some t => left; exact .fin c st t hc
        · exact .inl (.any c st)

theorem taken_chosen {f : Fmt} {bol : Bool} {stack : List Rule} {input : Bytes} {n : Nat} {a : Act}
    (ht : Taken (lexRules f bol stack) input n a) : Chosen f bol stack input n a := (ranked_ok f bol stack).chosen ht

/-! ## There is one way to read a document -/

theorem Active.unique {f : Fmt} {bol : Bool} {stack : List Rule} {r r' : Re} {a a' : Act} {k : List Nat}
    (h : Active f bol stack r a k) (h' : Active f bol stack r' a' k) : a = a' := by
  cases h with
  | rule i q h1 h2 => cases h' with | rule _ q' h3 h4 => rw [h1] at h3; cases h3; rfl
  | repl i q h1 => cases h' with | repl _ q' h3 => rw [h1] at h3; cases h3; rfl
  | space => cases h'; rfl
  | esc => cases h'; rfl
  | other => cases h'; rfl
  | inner i q c st h1 h2 h3 =>
    generalize hk : [0, q.prio, i] = k at h'
    cases h' with
    | inner i' q' _ _ h4 h5 h6 =>
      simp only [List.cons.injEq, and_true, true_and] at hk
      rw [hk.2, h4] at h1; cases h1; rfl
    | fin => simp at hk
    | any => simp at hk
  | fin c st t h1 => cases h' with | fin => rfl
  | any => cases h'; rfl

theorem Chosen.unique {f : Fmt} {bol : Bool} {stack : List Rule} {input : Bytes} {n n' : Nat} {a a' : Act}
    (h : Chosen f bol stack input n a) (h' : Chosen f bol stack input n' a') : n = n' ∧ a = a' := by
  obtain ⟨r, k, h1, h2, h3⟩ := h.first
  obtain ⟨r', k', h1', h2', h3'⟩ := h'.first
  have hn : n = n' := by
    rcases Nat.lt_trichotomy n n' with hlt | heq | hlt
    · exact absurd h2' (h.longest _ _ _ h1' n' hlt h'.le)
    · exact heq
    · exact absurd h2 (h'.longest _ _ _ h1 n hlt h.le)
  subst hn
  refine ⟨rfl, ?_⟩
  by_cases hlt : k < k'
  · exact absurd h2 (h3' _ _ _ h1 hlt)
  · by_cases hgt : k' < k
    · exact absurd h2' (h3 _ _ _ h1' hgt)
    · have hk : k = k' := List.le_antisymm (List.not_lt.1 hgt) (List.not_lt.1 hlt)
      subst hk
      exact h1.unique h1'

/-- **A document has one sequence of tokens.** -/
theorem Lexed.unique {f : Fmt} {bol : Bool} {stack : List Rule} {input : Bytes} {ts ts' : List Tok}
    (h : Lexed f bol stack input ts) (h' : Lexed f bol stack input ts') : ts = ts' := by
  induction h generalizing ts' with
  | nil bol stack =>
    cases h' with
    | nil => rfl
    | cons hc _ => have := hc.pos; have := hc.le; simp at this; omega
  | cons hc _ ih =>
    cases h' with
    | nil => have := hc.pos; have := hc.le; simp at this; omega
    | cons hc' hl' =>
      obtain ⟨rfl, rfl⟩ := hc.unique hc'
      rw [ih hl']

/-! ## The stream -/

theorem blank_of (w : Bytes) (hv : isValid w = true) :
    (w = [] ∨ w = [0x20]) ↔ ¬ (u16size w > 1 ∨ (u16size w = 1 ∧ w ≠ [0x20])) := by
  constructor
  · rintro (rfl | rfl) <;> decide
  · intro h
    by_cases h0 : u16size w = 0
    · exact .inl (u16size_pos hv h0)
    · right
      apply Decidable.byContradiction
      intro h1
      apply h
      by_cases h2 : u16size w = 1
      · exact .inr ⟨h2, h1⟩
      · left; omega

theorem flush_blank {f : Fmt} (hf : f.Plain) (o : Opts) (e : Env) (s : St) (hv : isValid s.buf = true) :
    (flushBuf f o e s).out = s.out ++ blankOf f o (e.tmp s.made) s.buf ∧ (flushBuf f o e s).buf = [] ∧
    (flushBuf f o e s).made = (if u16size s.buf > f.large then s.made + 1 else s.made) ∧
    (flushBuf f o e s).sym = s.sym ∧ (flushBuf f o e s).isDot = s.isDot ∧ (flushBuf f o e s).isEoh = s.isEoh ∧
    (flushBuf f o e s).stack = s.stack := by
  have hpre : (preDot o s).out = s.out ++ (if o.eosIncond then mark o else []) ∧ (preDot o s).made = s.made ∧
      (preDot o s).sym = s.sym ∧ (preDot o s).isDot = s.isDot ∧ (preDot o s).isEoh = s.isEoh ∧
      (preDot o s).stack = s.stack ∧ (preDot o s).buf = s.buf := by
    unfold preDot; split <;> simp
  obtain ⟨p1, p2, p3, p4, p5, p6, p8⟩ := hpre
  have hb := blank_of s.buf hv
  unfold flushBuf blankOf
  by_cases hbig : u16size s.buf > f.large
  · have hne : ¬ (s.buf = [] ∨ s.buf = [0x20]) := by
      rw [hb, Decidable.not_not]
      have := hf.large
      by_cases h1 : u16size s.buf > 1
      · exact .inl h1
      · right
        refine ⟨by omega, ?_⟩
        intro h2
        have : u16size [0x20] = 1 := by decide
        rw [h2] at hbig
        omega
    simp only [hbig, if_true, hne, if_false, p1, p2, p3, p4, p5, p6, p8]
    simp
  · simp only [hbig, if_false]
    by_cases hsmall : s.buf = [] ∨ s.buf = [0x20]
    · simp only [hb.1 hsmall, hsmall, if_true, if_false]
      simp
    · have hc : u16size s.buf > 1 ∨ (u16size s.buf = 1 ∧ s.buf ≠ [0x20]) :=
        Decidable.not_not.1 (fun h => hsmall (hb.2 h))
      have hne : s.buf ≠ [] := fun hh => hsmall (.inl hh)
      simp only [hc, hsmall, if_true, if_false, p1, p2, p3, p4, p5, p6, p8]
      rw [superblank_eq f _ hne]
      simp

theorem print_blank {f : Fmt} (hf : f.Plain) (o : Opts) (e : Env) (s : St) (hv : isValid s.buf = true) :
    (printBuffer f o e s).out = s.out ++ marksOf o ⟨s.buf, s.isDot, s.isEoh⟩ ++ blankOf f o (e.tmp s.made) s.buf ∧
    (printBuffer f o e s).buf = [] ∧
    (printBuffer f o e s).made = (if u16size s.buf > f.large then s.made + 1 else s.made) ∧
    (printBuffer f o e s).sym = s.sym ∧ (printBuffer f o e s).stack = s.stack ∧
    ((printBuffer f o e s).isDot && !o.eosIncond) = false ∧ ((printBuffer f o e s).isEoh && o.markEoh) = false := by
  unfold printBuffer marksOf
  have h1 : (eohMark o s).out = s.out ++ (if s.isEoh && o.markEoh then [0x5B, 0x5D, 0xE2, 0x9D, 0xA1] else []) ∧
      (eohMark o s).buf = s.buf ∧ (eohMark o s).made = s.made ∧ (eohMark o s).sym = s.sym ∧ (eohMark o s).stack = s.stack ∧
      (eohMark o s).isDot = s.isDot ∧ ((eohMark o s).isEoh && o.markEoh) = false := by
    unfold eohMark
    split
    · simp
    · rename_i h; simp [h]
  obtain ⟨a1, a2, a3, a4, a5, a6, a7⟩ := h1
  generalize eohMark o s = s1 at *
  have h2 : (dotMark o s1).out = s1.out ++ (if s1.isDot && !o.eosIncond then mark o else []) ∧
      (dotMark o s1).buf = s1.buf ∧ (dotMark o s1).made = s1.made ∧ (dotMark o s1).sym = s1.sym ∧
      (dotMark o s1).stack = s1.stack ∧ ((dotMark o s1).isDot && !o.eosIncond) = false ∧ (dotMark o s1).isEoh = s1.isEoh := by
    unfold dotMark
    split
    · simp
    · rename_i h; simp [h]
  obtain ⟨b1, b2, b3, b4, b5, b6, b7⟩ := h2
  generalize dotMark o s1 = s2 at *
  obtain ⟨c1, c2, c3, c4, c5, c6, c7⟩ := flush_blank hf o e s2 (by rw [b2, a2]; exact hv)
  refine ⟨?_, c2, ?_, ?_, ?_, ?_, ?_⟩
  · rw [c1, b1, a1, b2, a2, b3, a3, a6]; simp
  · rw [c3, b2, a2, b3, a3]
  · rw [c4, b4, a4]
  · rw [c7, b5, a5]
  · rw [c5]; exact b6
  · rw [c6, b7]; exact a7

/-- Flags that have no effect under the options do not matter. -/
theorem written_congr (f : Fmt) (o : Opts) (e : Env) (ts : List Tok) (k : Nat) (g g' : Gap) (h : g.all = g'.all)
    (h1 : (g.eos && !o.eosIncond) = (g'.eos && !o.eosIncond)) (h2 : (g.eoh && o.markEoh) = (g'.eoh && o.markEoh)) :
    written f o e k g ts = written f o e k g' ts := by
  induction ts generalizing g g' with
  | nil => simp [written, marksOf, h, h2]
  | cons t ts ih =>
    cases t with
    | markup t eos eoh =>
      simp only [written]
      apply ih
      · simp [h]
      · simp only [Bool.and_or_distrib_right, h1]
      · simp only [Bool.and_or_distrib_right, h2]
    | text x => simp only [written, marksOf, h, h1, h2]

/-- The pending bytes of an incomplete character belong to the text, or in a comment to the markup. -/
def pending (f : Fmt) (o : Opts) (e : Env) (s : St) (ts : List Tok) : Bytes :=
  match s.stack with
  | [] => s.sym ++ written f o e s.made ⟨s.buf, s.isDot, s.isEoh⟩ ts
  | _ :: _ => written f o e s.made ⟨s.buf ++ s.sym, s.isDot, s.isEoh⟩ ts

theorem pending_nosym (f : Fmt) (o : Opts) (e : Env) (s : St) (ts : List Tok) (h : s.sym = []) :
    pending f o e s ts = written f o e s.made ⟨s.buf, s.isDot, s.isEoh⟩ ts := by
  unfold pending; cases s.stack <;> simp [h]

/-- An incomplete character of the text has nothing before it that is still to be written. -/
def Quiet (o : Opts) (s : St) : Prop :=
  s.stack = [] → s.sym ≠ [] → s.buf = [] ∧ (s.isDot && !o.eosIncond) = false ∧ (s.isEoh && o.markEoh) = false

/-- What one action writes. -/
theorem act_pending {f : Fmt} (hf : f.Plain) {o : Opts} {e : Env} (he : e.Ok) {done text rest : Bytes} {s : St} {ps : List Piece}
    (hi : Inv f o e done (text ++ rest) s ps) (hne : text ≠ []) (a : Act) (ha : ActOk f s.stack text a)
    (hst : (a = .other → s.stack = []) ∧ (a = .inComment → s.stack ≠ []))
    (hcut : (a = .other ∨ a = .inComment) ∨ (s.sym = [] ∨ ∀ b ∈ text.head?, b.toNat < 128) ∧
      ((∀ b ∈ text.getLast?, b.toNat < 128) ∨ ∀ b ∈ rest.head?, b.toNat < 128)) (hq : Quiet o s) :
    (act f o e a text s).stack = stackOf a s.stack ∧ Quiet o (act f o e a text s) ∧
    ∀ ts, (act f o e a text s).out ++ pending f o e (act f o e a text s) ts = s.out ++ pending f o e s (tokOf a text :: ts) := by
  have h0 : 0 ∉ text := fun h => hi.nz (by simp [h])
  have hct := cstr_eq h0
  have hvb := hi.vbuf
  obtain ⟨p1, p2, p3, p4, p5, p6, p7⟩ := print_blank hf o e s hvb
  -- markup outside the one-byte rules
  have happ : ∀ eos eoh, (s.sym = [] ∧ isValid text = true ∧ isValid rest = true) →
      ∀ st, let s' := { appendBuf e text { s with isDot := s.isDot || eos, isEoh := s.isEoh || eoh } with stack := st }
      Quiet o s' ∧ ∀ ts, s'.out ++ pending f o e s' ts = s.out ++ pending f o e s (.markup text eos eoh :: ts) := by
    intro eos eoh hx st
    have ht : e.toU (cstr text) = text := by rw [hct]; exact he.toU _ hx.2.1
    refine ⟨?_, ?_⟩
    · intro _ hs
      exact absurd hx.1 hs
    · intro ts
      rw [pending_nosym _ _ _ _ _ (by exact hx.1), pending_nosym _ _ _ _ _ hx.1]
      simp only [appendBuf, ht, written]
  have happ0 : (s.sym = [] ∧ isValid text = true ∧ isValid rest = true) → ∀ st,
      let s' := { appendBuf e text s with stack := st }
      Quiet o s' ∧ ∀ ts, s'.out ++ pending f o e s' ts = s.out ++ pending f o e s (.markup text false false :: ts) := by
    intro hx st
    have := happ false false hx st
    simpa only [Bool.or_false] using this
  -- a text without an incomplete character before it
  have hput : ∀ x : Bytes, s.sym = [] →
      let s' := { printBuffer f o e s with out := (printBuffer f o e s).out ++ x }
      Quiet o s' ∧ ∀ ts, s'.out ++ pending f o e s' ts = s.out ++ pending f o e s (.text x :: ts) := by
    intro x hx
    refine ⟨?_, ?_⟩
    · intro _ hs
      exact absurd (p4.trans hx) hs
    · intro ts
      rw [pending_nosym _ _ _ _ _ (by exact p4.trans hx), pending_nosym _ _ _ _ _ hx]
      simp only [written, p1, p2, p3]
      rw [written_congr f o e ts _ ⟨[], (printBuffer f o e s).isDot, (printBuffer f o e s).isEoh⟩ {} rfl (by simp [p6]) (by simp [p7])]
      simp only [List.append_assoc]
  cases a with
  | fmt r =>
    have hr := hcut.resolve_left (by simp)
    have hx := text_valid hne hi.vrest hi.symE hr.1 hr.2
    simp only [act, stackOf, tokOf]
    split
    · exact ⟨rfl, happ r.eos r.eoh hx _⟩
    · exact ⟨rfl, happ r.eos r.eoh hx s.stack⟩
  | repl t =>
    have hr := hcut.resolve_left (by simp)
    have hx := text_valid hne hi.vrest hi.symE hr.1 hr.2
    simp only [act, stackOf, tokOf, hct]
    cases t.reverse.find? (fun p => decide (p.1 = text)) with
    | some q => exact ⟨p5, hput _ hx.1⟩
    | none => exact ⟨rfl, happ0 hx s.stack⟩
  | space =>
    have hr := hcut.resolve_left (by simp)
    have hx := text_valid hne hi.vrest hi.symE hr.1 hr.2
    exact ⟨rfl, happ0 hx s.stack⟩
  | esc =>
    have hr := hcut.resolve_left (by simp)
    have hx := text_valid hne hi.vrest hi.symE hr.1 hr.2
    have := hput (0x5C :: text) hx.1
    refine ⟨p5, ?_⟩
    have h3 : act f o e .esc text s = { printBuffer f o e s with out := (printBuffer f o e s).out ++ 0x5C :: text } := by
      simp [act]
    rw [h3]
    exact this
  | endComment =>
    have hr := hcut.resolve_left (by simp)
    have hx := text_valid hne hi.vrest hi.symE hr.1 hr.2
    exact ⟨rfl, happ0 hx s.stack.tail⟩
  | inComment =>
    obtain ⟨b, rfl⟩ := ha
    have hs := hst.2 rfl
    simp only [act, stackOf, tokOf, hct]
    cases hstk : s.stack with
    | nil => exact absurd hstk hs
    | cons c st =>
      split
      · refine ⟨rfl, ?_, ?_⟩
        · intro h; cases h
        · intro ts
          simp [pending, hstk, written]
      · refine ⟨rfl, ?_, ?_⟩
        · intro h; cases h
        · intro ts
          simp [pending, hstk, written]
  | other =>
    obtain ⟨b, rfl, hb⟩ := ha
    have hs := hst.1 rfl
    have hmid : s.out ++ marksOf o ⟨s.buf, s.isDot, s.isEoh⟩ ++ blankOf f o (e.tmp s.made) s.buf ++ s.sym =
        s.out ++ s.sym ++ marksOf o ⟨s.buf, s.isDot, s.isEoh⟩ ++ blankOf f o (e.tmp s.made) s.buf := by
      by_cases h : s.sym = []
      · simp [h]
      · obtain ⟨q1, q2, q3⟩ := hq hs h
        simp [q1, marksOf, q2, q3, blankOf]
    simp only [act, stackOf, tokOf, hct, p4]
    split
    · refine ⟨p5, ?_, ?_⟩
      · intro _ h; simp at h
      · intro ts
        rw [pending_nosym _ _ _ _ _ rfl]
        simp only [pending, hs, written, p1, p2, p3]
        rw [written_congr f o e ts _ ⟨[], (printBuffer f o e s).isDot, (printBuffer f o e s).isEoh⟩ {} rfl (by simp [p6]) (by simp [p7])]
        have := congrArg (· ++ ([b] ++ written f o e (if u16size s.buf > f.large then s.made + 1 else s.made) {} ts)) hmid
        simpa only [List.append_assoc] using this
    · refine ⟨p5, ?_, ?_⟩
      · intro _ _; exact ⟨p2, p6, p7⟩
      · intro ts
        have hps : (printBuffer f o e s).stack = [] := p5.trans hs
        simp only [pending, hs, hps, written, p1, p2, p3]
        rw [written_congr f o e ts _ ⟨[], (printBuffer f o e s).isDot, (printBuffer f o e s).isEoh⟩ {} rfl (by simp [p6]) (by simp [p7])]
        have := congrArg (· ++ ([b] ++ written f o e (if u16size s.buf > f.large then s.made + 1 else s.made) {} ts)) hmid
        simpa only [List.append_assoc] using this

theorem eof_written {f : Fmt} (hf : f.Plain) (o : Opts) (e : Env) (s : St) (hv : isValid s.buf = true) (hs : s.sym = []) :
    (atEof f o e s).out = s.out ++ pending f o e s [] := by
  rw [pending_nosym _ _ _ _ _ hs]
  unfold atEof
  have hb : (preDot o { s with isDot := true }).buf = s.buf := by unfold preDot; split <;> rfl
  rw [(print_blank hf o e _ (by rw [hb]; exact hv)).1]
  unfold preDot
  split <;> rename_i h <;> simp [written, h]

/-- Which one-byte rules there are depends on whether a comment is open. -/
theorem taken_mode {f : Fmt} {bol : Bool} {stack : List Rule} {input : Bytes} {n : Nat} {a : Act}
    (ht : Taken (lexRules f bol stack) input n a) : (a = .other → stack = []) ∧ (a = .inComment → stack ≠ []) := by
  obtain ⟨r, k, h, -⟩ := (taken_chosen ht).first
  constructor
  · rintro rfl; cases h; rfl
  · rintro rfl; cases h; simp

theorem loop_written {f : Fmt} (hf : f.Plain) {o : Opts} {e : Env} (he : e.Ok) (n : Nat) {done rest : Bytes} {s : St}
    {ps : List Piece} (hi : Inv f o e done rest s ps) (hn : rest.length ≤ n) (hsym : SymInv f rest s) (hq : Quiet o s) :
    ∃ ts, Lexed f s.bol s.stack rest ts ∧ (atEof f o e (lexLoop f o e n rest s)).out = s.out ++ pending f o e s ts := by
  induction n generalizing done rest s ps with
  | zero =>
    have : rest = [] := by cases rest <;> simp_all
    subst this
    exact ⟨[], .nil _ _, eof_written hf o e s hi.vbuf (hi.symE (by simpa using hi.vrest))⟩
  | succ n ih =>
    cases rest with
    | nil => exact ⟨[], .nil _ _, eof_written hf o e s hi.vbuf (hi.symE (by simpa using hi.vrest))⟩
    | cons b r =>
      obtain ⟨k, a, hpk, ht, hok, hcut, hne, ⟨qs, h1⟩, hsym2⟩ := hi.turn hf he hsym
      have hlen : ((b :: r).drop k).length ≤ n := by
        have := ht.pos
        simp only [List.length_drop, List.length_cons] at hn ⊢
        omega
      have hi2 : Inv f o e done ((b :: r).take k ++ (b :: r).drop k) s ps := by rw [List.take_append_drop]; exact hi
      obtain ⟨a1, a2, a3⟩ := act_pending hf he hi2 hne a hok (taken_mode ht) hcut hq
      obtain ⟨ts, h3, h4⟩ := ih (h1.setBol _) hlen hsym2 a2
      refine ⟨tokOf a ((b :: r).take k) :: ts, .cons (taken_chosen ht) ?_, ?_⟩
      · rw [← a1]; exact h3
      · simp only [lexLoop, turn, hpk]
        rw [h4]
        exact a3 ts

/-- **C68.** A document in any of the formats has exactly one sequence of tokens (`Lexed`), and the deformatter writes exactly the
stream for it (`written`): the markup between two texts in one blank, the text outside, its entities decoded and its special
characters escaped, and the marks of the ends of sentences and headers before the blanks that have one. -/
theorem C68_markup {f : Fmt} (hf : f ∈ formats) (o : Opts) {e : Env} (he : e.Ok) (doc : Bytes) (hv : isValid doc = true)
    (h0 : 0 ∉ doc) :
    ∃ ts, Lexed f true [] doc ts ∧ (∀ ts', Lexed f true [] doc ts' → ts' = ts) ∧
      (deformat f o e doc).out = written f o e 0 {} ts := by
  have hi : Inv f o e [] doc {} [] := by
    refine ⟨by simp, by simp [renderAll], by simp [filesAll], by simp [filesAll], by simpa [plainAll] using .nil, by simp,
      isValid_nil, by simpa using hv, by simp, by simpa using h0, by simp, by simp, by simp⟩
  obtain ⟨ts, h1, h2⟩ := loop_written (formats_plain f hf) he doc.length hi (Nat.le_refl _) (by intro t z h; simp at h)
    (by intro _ h; simp at h)
  refine ⟨ts, h1, fun ts' h => h.unique h1, ?_⟩
  simpa [deformat, pending] using h2

/-- A page with a comment that has a tag in it, an entity, a script with a comment, and a header. -/
def samplePage2 : Bytes := bytes "<p>x &lt; y &eacute;</p><!-- <b> --><script>a<!-- b </script> --></script><h1>T</h1> z"

example : isValid samplePage2 = true ∧ 0 ∉ samplePage2 ∧
    (deformat html { markEoh := true } { tmp := fun _ => [], toU := id } samplePage2).out = bytes
      ".[][<p>]x[ &lt; ]y " ++ [0xC3, 0xA9] ++ bytes ".[][<\\/p><!-- <b> --><script>a<!-- b <\\/script> --><\\/script><h1>]T" ++
      [0x5B, 0x5D, 0xE2, 0x9D, 0xA1] ++ bytes ".[][<\\/h1> ]z.[]" := by decide +kernel

end Verif.Format
