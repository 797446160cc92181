import Verif.Format.ReProofs
/-!
# The deformatter writes a stream of pieces
-/
namespace Verif.Format

/-! ## Lists of pieces -/

theorem renderAll_append (f : Fmt) (o : Opts) (a b : List Piece) :
    renderAll f o (a ++ b) = renderAll f o a ++ renderAll f o b := by simp [renderAll]
theorem plainAll_append (a b : List Piece) : plainAll (a ++ b) = plainAll a ++ plainAll b := by simp [plainAll]
theorem filesAll_append (a b : List Piece) : filesAll (a ++ b) = filesAll a ++ filesAll b := by simp [filesAll]

theorem renderAll_chr (f : Fmt) (o : Opts) (s : Bytes) : renderAll f o (s.map .chr) = s := by
  induction s with
  | nil => rfl
  | cons b s ih => simp only [renderAll, List.map_cons, List.flatMap_cons] at ih ⊢; rw [ih]; rfl
theorem plainAll_chr (s : Bytes) : plainAll (s.map .chr) = s := by
  induction s with
  | nil => rfl
  | cons b s ih => simp only [plainAll, List.map_cons, List.flatMap_cons] at ih ⊢; rw [ih]; rfl
theorem filesAll_chr (s : Bytes) : filesAll (s.map .chr) = [] := by
  induction s with
  | nil => rfl
  | cons b s ih => simp only [filesAll, List.map_cons, List.flatMap_cons] at ih ⊢; rw [ih]; rfl

/-! ## `printBuffer` -/

theorem u16size_pos {s : Bytes} (hv : isValid s = true) (h : u16size s = 0) : s = [] := by
  rw [isValid_iff] at hv
  obtain ⟨cs, rfl⟩ := hv
  cases cs with
  | nil => rfl
  | cons c cs =>
    obtain ⟨b, t, he, _, _, hb⟩ := enc_shape c
    exfalso
    simp only [encs, List.flatMap_cons, he, u16size, List.cons_append] at h
    rw [List.filter_cons_of_pos] at h
    · simp at h
    · unfold cont at hb
      exact decide_eq_true (by omega)

theorem superblank_eq (f : Fmt) (w : Bytes) (hw : w ≠ []) : superblank f w = [0x5B] ++ quoted f w ++ [0x5D] := by
  cases w with
  | nil => exact absurd rfl hw
  | cons b w =>
    simp only [superblank, quoted, escapeBuf, List.flatMap_cons]
    by_cases he : f.escape b = true
    · simp [he]
    · by_cases ha : b = 0x40
      · subst ha; simp [he]
      · simp [he, ha]

/-- What `printBuffer` and `preDot` do to a state: some pieces are written that stand for the buffer. -/
structure Printed (f : Fmt) (o : Opts) (e : Env) (s s' : St) (qs : List Piece) : Prop where
  good : ∀ p ∈ qs, p.Good f
  out : s'.out = s.out ++ renderAll f o qs
  files : s'.files = s.files ++ filesAll qs
  names : (List.range s'.made).map e.tmp = (List.range s.made).map e.tmp ++ (filesAll qs).map (·.1)
  plain : plainAll qs ++ s'.buf = s.buf
  sym : s'.sym = s.sym
  stack : s'.stack = s.stack
  eoh : s'.isEoh = true → s.isEoh = true
  hm : Piece.hmark ∈ qs → o.markEoh = true ∧ s.isEoh = true

theorem Printed.refl (f : Fmt) (o : Opts) (e : Env) (s : St) : Printed f o e s s [] :=
  ⟨by simp, by simp [renderAll], by simp [filesAll], by simp [filesAll], by simp [plainAll], rfl, rfl, id, by simp⟩

theorem Printed.trans {f : Fmt} {o : Opts} {e : Env} {a b c : St} {p q : List Piece}
    (h1 : Printed f o e a b p) (h2 : Printed f o e b c q) : Printed f o e a c (p ++ q) where
  good := by
    intro x hx
    rcases List.mem_append.1 hx with hx | hx
    · exact h1.good x hx
    · exact h2.good x hx
  out := by rw [h2.out, h1.out, renderAll_append, List.append_assoc]
  files := by rw [h2.files, h1.files, filesAll_append, List.append_assoc]
  names := by rw [h2.names, h1.names, filesAll_append, List.map_append, List.append_assoc]
  plain := by rw [plainAll_append, List.append_assoc, h2.plain, h1.plain]
  sym := h2.sym.trans h1.sym
  stack := h2.stack.trans h1.stack
  eoh := fun h => h1.eoh (h2.eoh h)
  hm := by
    intro hx
    rcases List.mem_append.1 hx with hx | hx
    · exact h1.hm hx
    · exact ⟨(h2.hm hx).1, h1.eoh (h2.hm hx).2⟩

theorem preDot_printed (f : Fmt) (o : Opts) (e : Env) (s : St) : ∃ qs, Printed f o e s (preDot o s) qs := by
  unfold preDot
  split
  · exact ⟨[.mark], by simp [Piece.Good], by simp [renderAll, Piece.render, mark], by simp [filesAll, Piece.file],
      by simp [filesAll, Piece.file], by simp [plainAll, Piece.plain], rfl, rfl, id, by simp⟩
  · exact ⟨[], .refl ..⟩

theorem eohMark_printed (f : Fmt) (o : Opts) (e : Env) (s : St) : ∃ qs, Printed f o e s (eohMark o s) qs := by
  unfold eohMark
  split
  · rename_i h
    simp only [Bool.and_eq_true] at h
    exact ⟨[.hmark], by simp [Piece.Good], by simp [renderAll, Piece.render], by simp [filesAll, Piece.file],
      by simp [filesAll, Piece.file], by simp [plainAll, Piece.plain], rfl, rfl, by simp, by simp [h.1, h.2]⟩
  · exact ⟨[], .refl ..⟩

theorem dotMark_printed (f : Fmt) (o : Opts) (e : Env) (s : St) : ∃ qs, Printed f o e s (dotMark o s) qs := by
  unfold dotMark
  split
  · exact ⟨[.mark], by simp [Piece.Good], by simp [renderAll, Piece.render, mark], by simp [filesAll, Piece.file],
      by simp [filesAll, Piece.file], by simp [plainAll, Piece.plain], rfl, rfl, id, by simp⟩
  · exact ⟨[], .refl ..⟩

theorem flushBuf_printed {f : Fmt} (hf : f.Plain) (o : Opts) {e : Env} (he : e.Ok) (s : St) (hv : isValid s.buf = true)
    (h0 : 0 ∉ s.buf) : ∃ qs, Printed f o e s (flushBuf f o e s) qs ∧ (flushBuf f o e s).buf = [] := by
  unfold flushBuf
  obtain ⟨qs, hq⟩ := preDot_printed f o e s
  have hbuf : (preDot o s).buf = s.buf := by unfold preDot; split <;> rfl
  have hmade : (preDot o s).made = s.made := by unfold preDot; split <;> rfl
  split
  · have hg := he.good s.made
    refine ⟨qs ++ [.big (e.tmp s.made) s.buf], hq.trans ⟨?_, ?_, ?_, ?_, ?_, rfl, rfl, id, by simp⟩, rfl⟩
    · simpa [Piece.Good] using hg
    · simp [renderAll, Piece.render, hmade]
    · simp [filesAll, Piece.file, hmade, hbuf]
    · simp [filesAll, Piece.file, hmade, List.range_succ]
    · simp [plainAll, Piece.plain, hbuf]
  · split
    · rename_i h
      have hne : s.buf ≠ [] := by
        rintro he2
        rw [he2] at h
        simp [u16size] at h
      refine ⟨qs ++ [.blank s.buf], hq.trans ⟨?_, ?_, ?_, ?_, ?_, rfl, rfl, id, by simp⟩, rfl⟩
      · simp [Piece.Good, hne, h0]
      · simp [renderAll, Piece.render, hbuf, superblank_eq f _ hne]
      · simp [filesAll, Piece.file]
      · simp [filesAll, Piece.file]
      · simp [plainAll, Piece.plain, hbuf]
    · rename_i h1 h2
      have hcase : s.buf = [] ∨ s.buf = [0x20] := by
        by_cases hb : s.buf = [0x20]
        · exact .inr hb
        · left
          apply u16size_pos hv
          have : ¬ (u16size s.buf > 1) ∧ ¬ (u16size s.buf = 1 ∧ s.buf ≠ [0x20]) := by
            constructor
            · exact fun h => h2 (.inl h)
            · exact fun h => h2 (.inr h)
          have h3 : u16size s.buf ≠ 1 := fun h => this.2 ⟨h, hb⟩
          have := this.1
          omega
      rcases hcase with hb | hb
      · refine ⟨[], ⟨by simp, ?_, ?_, ?_, ?_, rfl, rfl, id, by simp⟩, rfl⟩ <;>
          simp [hb, renderAll, filesAll, plainAll]
      · refine ⟨[.chr 0x20], ⟨?_, ?_, ?_, ?_, ?_, rfl, rfl, id, by simp⟩, rfl⟩
        · simp [Piece.Good, hf.sp]
        · simp [hb, renderAll, Piece.render]
        · simp [filesAll, Piece.file]
        · simp [filesAll, Piece.file]
        · simp [hb, plainAll, Piece.plain]

theorem printBuffer_printed {f : Fmt} (hf : f.Plain) (o : Opts) {e : Env} (he : e.Ok) (s : St) (hv : isValid s.buf = true)
    (h0 : 0 ∉ s.buf) : ∃ qs, Printed f o e s (printBuffer f o e s) qs ∧ (printBuffer f o e s).buf = [] := by
  obtain ⟨q1, h1⟩ := eohMark_printed f o e s
  obtain ⟨q2, h2⟩ := dotMark_printed f o e (eohMark o s)
  have hb : (dotMark o (eohMark o s)).buf = s.buf := by
    unfold dotMark eohMark; repeat' split
    all_goals rfl
  obtain ⟨q3, h3, h4⟩ := flushBuf_printed hf o he (dotMark o (eohMark o s)) (by rw [hb]; exact hv) (by rw [hb]; exact h0)
  exact ⟨q1 ++ q2 ++ q3, (h1.trans h2).trans h3, h4⟩

/-! ## The invariant of the lexer -/

/-- After the bytes `done`, with `rest` still to come, `ps` has been written, and the buffer and the incomplete character are
what is missing of `done`. -/
structure Inv (f : Fmt) (o : Opts) (e : Env) (done rest : Bytes) (s : St) (ps : List Piece) : Prop where
  good : ∀ p ∈ ps, p.Good f
  out : s.out = renderAll f o ps
  files : s.files = filesAll ps
  names : (List.range s.made).map e.tmp = (filesAll ps).map (·.1)
  plain : Decoded f done (plainAll ps ++ s.buf ++ s.sym)
  nzb : 0 ∉ s.buf ++ s.sym
  vbuf : isValid s.buf = true
  vrest : isValid (s.sym ++ rest) = true
  symE : isValid s.sym = true → s.sym = []
  nz : 0 ∉ done ++ rest
  symEsc : ∀ b ∈ s.sym, f.escape b = false
  stack : ∀ r ∈ s.stack, r ∈ f.rules
  eoh : (o.markEoh = false ∨ ∀ r ∈ f.rules, r.eoh = false) → Piece.hmark ∉ ps ∧ (o.markEoh = true → s.isEoh = false)

theorem mem_insPrio (r q : Rule) (l : List Rule) : q ∈ insPrio r l ↔ q = r ∨ q ∈ l := by
  induction l with
  | nil => simp [insPrio]
  | cons a l ih =>
    simp only [insPrio]
    split
    · simp
    · simp only [List.mem_cons, ih]
      constructor
      · rintro (h | h | h) <;> simp [h]
      · rintro (h | h | h) <;> simp [h]

theorem mem_byPrio (q : Rule) (l : List Rule) : q ∈ byPrio l ↔ q ∈ l := by
  induction l with
  | nil => simp [byPrio]
  | cons a l ih => simp [byPrio, mem_insPrio, ih]

/-- Which text an action can get. -/
def ActOk (f : Fmt) (stack : List Rule) (text : Bytes) : Act → Prop
  | .fmt r => r ∈ f.rules ∧ r.re.Matches text
  | .repl t => ∃ p ∈ f.repls, t = p.table ∧ p.re.Matches text
  | .space => ∃ b, text = [b] ∧ f.space b = true
  | .esc => ∃ b, text = [b] ∧ f.escape b = true
  | .other => ∃ b, text = [b] ∧ f.escape b = false
  | .endComment => ∃ c st t, stack = c :: st ∧ c.fin = some t ∧ t.Matches text
  | .inComment => ∃ b, text = [b]

theorem matches_cls {p : UInt8 → Bool} {s : Bytes} (h : (Re.cls p).Matches s) : ∃ b, s = [b] ∧ p b = true := by
  cases h with
  | cls h => exact ⟨_, rfl, h⟩

theorem last_split {α : Type} (A : List α) (y w z : α) (before after : List α)
    (h : A ++ [y] ++ [w] = before ++ z :: after) (hz : z ∉ A ++ [y]) : y ∈ before := by
  rcases List.eq_nil_or_concat after with ha | ⟨L, v, hL⟩
  · subst ha
    have := congrArg List.dropLast h
    rw [List.dropLast_concat, List.dropLast_concat] at this
    rw [← this]; simp
  · exfalso
    rw [hL, List.concat_eq_append, show before ++ z :: (L ++ [v]) = (before ++ z :: L) ++ [v] from by simp] at h
    have := congrArg List.dropLast h
    rw [List.dropLast_concat, List.dropLast_concat] at this
    exact hz (by rw [this]; simp)

theorem actOk_of_taken (f : Fmt) (bol : Bool) (stack : List Rule) (input : Bytes)
    (n : Nat) (a : Act) (h : Taken (lexRules f bol stack) input n a) : ActOk f stack (input.take n) a := by
  obtain ⟨before, r, after, hr, hm, hb⟩ := h.rule
  have hmem : (r, a) ∈ lexRules f bol stack := by rw [hr]; simp
  cases stack with
  | nil =>
    simp only [lexRules, List.mem_append, List.mem_map, List.mem_filter, List.mem_cons,
      Prod.mk.injEq, List.not_mem_nil, or_false] at hmem
    rcases hmem with (⟨q, ⟨hq, _⟩, rfl, rfl⟩ | ⟨q, hq, rfl, rfl⟩) | ⟨rfl, rfl⟩ | ⟨rfl, rfl⟩ | ⟨rfl, rfl⟩
    · exact ⟨hq, hm⟩
    · exact ⟨q, hq, rfl, hm⟩
    · exact matches_cls hm
    · exact matches_cls hm
    · obtain ⟨b, hb1, _⟩ := matches_cls hm
      refine ⟨b, hb1, ?_⟩
      cases he : f.escape b with
      | false => rfl
      | true =>
        exfalso
        have hin : (Re.cls f.escape, Act.esc) ∈ before := by
          refine last_split (List.map (fun r => (r.re, Act.fmt r)) (f.rules.filter (fun r => !r.bol || bol)) ++ List.map (fun p => (p.re, Act.repl p.table)) f.repls ++
            [(Re.cls f.space, Act.space)]) _ (Re.cls (fun b => decide (b ≠ 0x0A)), Act.other)
            (Re.cls (fun b => decide (b ≠ 0x0A)), Act.other) before after ?_ ?_
          · rw [← hr]; simp [lexRules]
          · simp
        refine hb (Re.cls f.escape, Act.esc) hin ?_
        rw [hb1]
        exact .cls he
  | cons c st =>
    simp only [lexRules, List.mem_append, List.mem_map, List.mem_filter, List.mem_cons, Prod.mk.injEq,
      List.not_mem_nil, or_false] at hmem
    rcases hmem with ⟨q, ⟨hq, _⟩, rfl, rfl⟩ | ⟨rfl, rfl⟩ | ⟨rfl, rfl⟩
    · exact ⟨(mem_byPrio q _).1 hq, hm⟩
    · cases hc : c.fin with
      | none => rw [hc] at hm; exact absurd hm (Re.matches_none _)
      | some t => rw [hc] at hm; exact ⟨c, st, t, rfl, hc, hm⟩
    · obtain ⟨b, hb, _⟩ := matches_cls hm
      exact ⟨b, hb⟩

theorem pick_isSome {f : Fmt} (hf : f.Plain) (bol : Bool) (stack : List Rule) (b : UInt8) (rest : Bytes) :
    ∃ n a, pick (lexRules f bol stack) (b :: rest) = some (n, a) := by
  cases h : pick (lexRules f bol stack) (b :: rest) with
  | some x => exact ⟨x.1, x.2, rfl⟩
  | none =>
    exfalso
    have := pick_none _ _ h
    cases stack with
    | nil =>
      by_cases hb : b = 0x0A
      · exact this (Re.cls f.space, .space) (by simp [lexRules]) 1 (by omega) (by simp) (by simpa [hb] using .cls hf.nl)
      · exact this (Re.cls (fun b => decide (b ≠ 0x0A)), .other) (by simp [lexRules]) 1 (by omega) (by simp)
          (by simpa using .cls (by simpa using hb))
    | cons c st =>
      exact this (Re.cls (fun _ => true), .inComment) (by simp [lexRules]) 1 (by omega) (by simp) (by simpa using .cls rfl)

/-- A piece of format is valid by itself, and no character is incomplete before it. -/
theorem text_valid {sym text rest : Bytes} (hne : text ≠ []) (hv : isValid (sym ++ (text ++ rest)) = true)
    (hs : isValid sym = true → sym = []) (h1 : sym = [] ∨ ∀ b ∈ text.head?, b.toNat < 128)
    (h2 : (∀ b ∈ text.getLast?, b.toNat < 128) ∨ ∀ b ∈ rest.head?, b.toNat < 128) :
    sym = [] ∧ isValid text = true ∧ isValid rest = true := by
  have hx : sym = [] ∧ isValid (text ++ rest) = true := by
    rcases h1 with h1 | h1
    · rw [h1] at hv; exact ⟨h1, by simpa using hv⟩
    · have hx := isValid_split hv (by
        intro x hx
        apply not_cont_ascii
        apply h1
        cases text with
        | nil => exact absurd rfl hne
        | cons a t => simpa using hx)
      exact ⟨hs hx.1, hx.2⟩
  refine ⟨hx.1, ?_⟩
  rcases h2 with h2 | h2
  · rcases List.eq_nil_or_concat text with h | ⟨t, z, hz⟩
    · exact absurd h hne
    · rw [List.concat_eq_append] at hz
      have hz2 : z.toNat < 128 := h2 z (by rw [hz]; simp)
      have h3 := hx.2
      rw [hz, List.append_assoc] at h3
      have h4 := isValid_split h3 (by simpa using not_cont_ascii hz2)
      have h5 := isValid_cancel h4.2 (isValid_ascii z hz2)
      rw [hz]
      exact ⟨isValid_append h4.1 (isValid_ascii z hz2), h5⟩
  · exact isValid_split hx.2 (fun x hx => not_cont_ascii (h2 x hx))

theorem Decoded.refl (f : Fmt) (x : Bytes) : Decoded f x x := by
  induction x with
  | nil => exact .nil
  | cons b x ih => exact .keep b ih

theorem Decoded.append {f : Fmt} {x y z w : Bytes} (h1 : Decoded f x y) (h2 : Decoded f z w) : Decoded f (x ++ z) (y ++ w) := by
  induction h1 with
  | nil => exact h2
  | keep b _ ih => exact .keep b ih
  | repl p q hp hq _ ih => rw [List.append_assoc, List.append_assoc]; exact .repl p q hp hq ih

theorem Inv.append {f : Fmt} {o : Opts} {e : Env} {done text rest : Bytes} {s : St} {ps : List Piece}
    (he : e.Ok) (hi : Inv f o e done (text ++ rest) s ps) (hne : text ≠ [])
    (h1 : s.sym = [] ∨ ∀ b ∈ text.head?, b.toNat < 128)
    (h2 : (∀ b ∈ text.getLast?, b.toNat < 128) ∨ ∀ b ∈ rest.head?, b.toNat < 128) :
    Inv f o e (done ++ text) rest (appendBuf e text s) ps := by
  have hx := text_valid hne hi.vrest hi.symE h1 h2
  have h0 : 0 ∉ text := fun h => hi.nz (by simp [h])
  have ht : e.toU (cstr text) = text := by rw [cstr_eq h0]; exact he.toU _ hx.2.1
  have hb : (appendBuf e text s).buf = s.buf ++ text := by simp [appendBuf, ht]
  have hs : (appendBuf e text s).sym = [] := hx.1
  exact {
    good := hi.good, out := hi.out, files := hi.files, names := hi.names, symE := hi.symE, symEsc := hi.symEsc,
    stack := hi.stack, eoh := hi.eoh
    plain := by
      have := hi.plain
      rw [hx.1, List.append_nil] at this
      rw [hb, hs, List.append_nil, ← List.append_assoc]
      exact this.append (.refl f text)
    nzb := by
      have := hi.nzb
      rw [hb, hs]
      simp only [List.mem_append, not_or, List.append_nil] at this ⊢
      exact ⟨this.1, h0⟩
    vbuf := by rw [hb]; exact isValid_append hi.vbuf hx.2.1
    vrest := by rw [hs]; exact hx.2.2
    nz := by simpa using hi.nz }

theorem Inv.print {f : Fmt} (hf : f.Plain) {o : Opts} {e : Env} {done rest : Bytes} {s : St} {ps : List Piece}
    (he : e.Ok) (hi : Inv f o e done rest s ps) :
    ∃ qs, Inv f o e done rest (printBuffer f o e s) (ps ++ qs) ∧ (printBuffer f o e s).buf = [] ∧
      (printBuffer f o e s).sym = s.sym ∧ (printBuffer f o e s).stack = s.stack := by
  have h0 : 0 ∉ s.buf := fun h => hi.nzb (by simp [h])
  obtain ⟨qs, hq, hb⟩ := printBuffer_printed hf o he s hi.vbuf h0
  refine ⟨qs, ?_, hb, hq.sym, hq.stack⟩
  exact {
    good := by
      intro p hp
      rcases List.mem_append.1 hp with hp | hp
      · exact hi.good p hp
      · exact hq.good p hp
    out := by rw [hq.out, hi.out, renderAll_append]
    files := by rw [hq.files, hi.files, filesAll_append]
    names := by rw [hq.names, hi.names, filesAll_append, List.map_append]
    plain := by
      rw [plainAll_append, List.append_assoc (plainAll ps), hq.plain, hq.sym]
      exact hi.plain
    nzb := by
      have := hi.nzb
      rw [hb, hq.sym]
      simp only [List.mem_append, not_or] at this ⊢
      exact ⟨by simp, this.2⟩
    vbuf := by rw [hb]; exact isValid_nil
    vrest := by rw [hq.sym]; exact hi.vrest
    symE := by rw [hq.sym]; exact hi.symE
    nz := hi.nz
    symEsc := by rw [hq.sym]; exact hi.symEsc
    stack := by rw [hq.stack]; exact hi.stack
    eoh := by
      intro hh
      have h1 := hi.eoh hh
      refine ⟨?_, ?_⟩
      · intro hx
        rcases List.mem_append.1 hx with hx | hx
        · exact h1.1 hx
        · have h2 := hq.hm hx
          rw [h1.2 h2.1] at h2
          exact absurd h2.2 (by simp)
      · intro hm
        cases hc : (printBuffer f o e s).isEoh with
        | false => rfl
        | true => rw [← hq.eoh hc, h1.2 hm] }

/-- After `printBuffer`, some bytes without a meaning in the stream are written. -/
theorem Inv.putChrs {f : Fmt} {o : Opts} {e : Env} {done rest src t : Bytes} {s s' : St} {ps : List Piece}
    (hi : Inv f o e done (src ++ rest) s ps) (hbuf : s.buf = [])
    (hd : Decoded f (done ++ src) (plainAll ps ++ t))
    (ht : ∀ b ∈ t, f.escape b = false ∧ b ≠ 0) (hv : isValid rest = true)
    (hs' : s' = { s with out := s.out ++ t, sym := [] }) :
    Inv f o e (done ++ src) rest s' (ps ++ t.map .chr) := by
  subst hs'
  exact {
    good := by
      intro p hp
      rcases List.mem_append.1 hp with hp | hp
      · exact hi.good p hp
      · obtain ⟨b, hb, rfl⟩ := List.mem_map.1 hp
        exact ht b hb
    out := by simp only; rw [hi.out, renderAll_append, renderAll_chr]
    files := by simp only; rw [hi.files, filesAll_append, filesAll_chr, List.append_nil]
    names := by simp only; rw [hi.names, filesAll_append, filesAll_chr, List.append_nil]
    plain := by
      simp only [hbuf, List.append_nil, plainAll_append, plainAll_chr]
      exact hd
    nzb := by simp [hbuf]
    vbuf := by simp only [hbuf]; exact isValid_nil
    vrest := by simpa using hv
    symE := by simp
    nz := by simpa using hi.nz
    symEsc := by simp
    stack := hi.stack
    eoh := by
      intro hh
      refine ⟨?_, (hi.eoh hh).2⟩
      intro hx
      rcases List.mem_append.1 hx with hx | hx
      · exact (hi.eoh hh).1 hx
      · obtain ⟨c, _, hcc⟩ := List.mem_map.1 hx
        cases hcc }

theorem Inv.setBol {f : Fmt} {o : Opts} {e : Env} {done rest : Bytes} {s : St} {ps : List Piece}
    (h : Inv f o e done rest s ps) (b : Bool) : Inv f o e done rest { s with bol := b } ps where
  good := h.good
  out := h.out
  files := h.files
  names := h.names
  plain := h.plain
  nzb := h.nzb
  vbuf := h.vbuf
  vrest := h.vrest
  symE := h.symE
  nz := h.nz
  symEsc := h.symEsc
  stack := h.stack
  eoh := h.eoh

/-- Each action keeps the invariant. -/
theorem Inv.act {f : Fmt} (hf : f.Plain) {o : Opts} {e : Env} {done text rest : Bytes} {s : St} {ps : List Piece}
    (he : e.Ok) (hi : Inv f o e done (text ++ rest) s ps) (hne : text ≠ []) (a : Act) (ha : ActOk f s.stack text a)
    (hcut : (a = .other ∨ a = .inComment) ∨ (s.sym = [] ∨ ∀ b ∈ text.head?, b.toNat < 128) ∧
      ((∀ b ∈ text.getLast?, b.toNat < 128) ∨ ∀ b ∈ rest.head?, b.toNat < 128)) :
    ∃ qs, Inv f o e (done ++ text) rest (act f o e a text s) (ps ++ qs) := by
  have hnz : 0 ∉ (done ++ text) ++ rest := by simpa using hi.nz
  have h0 : 0 ∉ text := fun h => hi.nz (by simp [h])
  cases a with
  | fmt r =>
    have hr := hcut.resolve_left (by simp)
    have h1 := hi.append he hne hr.1 hr.2
    have h2 : Inv f o e (done ++ text) rest
        (appendBuf e text { s with isDot := s.isDot || r.eos, isEoh := s.isEoh || r.eoh }) ps := {
      good := h1.good, out := h1.out, files := h1.files, names := h1.names, plain := h1.plain, nzb := h1.nzb, vbuf := h1.vbuf,
      vrest := h1.vrest, symE := h1.symE, nz := h1.nz, symEsc := h1.symEsc, stack := h1.stack
      eoh := by
        intro hh
        refine ⟨(hi.eoh hh).1, fun hm => ?_⟩
        simp only [appendBuf, Bool.or_eq_false_iff]
        refine ⟨(hi.eoh hh).2 hm, ?_⟩
        rcases hh with hh | hh
        · rw [hh] at hm; cases hm
        · exact hh r ha.1 }
    refine ⟨[], ?_⟩
    rw [List.append_nil]
    simp only [Format.act]
    split
    · exact {
        good := h2.good, out := h2.out, files := h2.files, names := h2.names, plain := h2.plain, nzb := h2.nzb, vbuf := h2.vbuf,
        vrest := h2.vrest, symE := h2.symE, nz := h2.nz, symEsc := h2.symEsc, eoh := h2.eoh
        stack := by
          intro q hq
          rcases List.mem_cons.1 hq with rfl | hq
          · exact ha.1
          · exact h2.stack q hq }
    · exact h2
  | repl t =>
    obtain ⟨p, hp, rfl, hm⟩ := ha
    have hr := hcut.resolve_left (by simp)
    simp only [Format.act]
    split
    · rename_i q hq
      have hq0 := List.find?_some hq
      have hq1 : q.1 = cstr text := of_decide_eq_true hq0
      have hq2 : q ∈ p.table := by simpa using List.mem_of_find?_eq_some hq
      rw [cstr_eq h0] at hq1
      have hx := text_valid hne hi.vrest hi.symE hr.1 hr.2
      obtain ⟨qs, hpr, hbuf, hsym, hst⟩ := hi.print hf he
      refine ⟨qs ++ q.2.1.map .chr, ?_⟩
      rw [← List.append_assoc]
      refine hpr.putChrs hbuf ?_ (hf.repls p hp q hq2).1 hx.2.2 ?_
      · have h3 := hpr.plain
        rw [hbuf, hsym, hx.1, List.append_nil, List.append_nil] at h3
        have h4 := h3.append (Decoded.repl p q hp hq2 .nil)
        rw [List.append_nil, List.append_nil, hq1] at h4
        exact h4
      · have h5 : (printBuffer f o e s).sym = [] := by rw [hsym, hx.1]
        cases hps : printBuffer f o e s
        rw [hps] at h5
        simp only at h5
        simp [h5]
    · exact ⟨[], by rw [List.append_nil]; exact hi.append he hne hr.1 hr.2⟩
  | space =>
    obtain ⟨b, rfl, hb⟩ := ha
    have := hf.spaceAscii b hb
    refine ⟨[], ?_⟩
    rw [List.append_nil]
    exact hi.append he hne (.inr (by simpa using this)) (.inl (by simpa using this))
  | esc =>
    obtain ⟨b, rfl, hb⟩ := ha
    have hb2 := hf.escAscii b hb
    have hx := text_valid hne hi.vrest hi.symE (.inr (by simpa using hb2)) (.inl (by simpa using hb2))
    obtain ⟨qs, hp, hbuf, hsym, hst⟩ := hi.print hf he
    have hs0 : (printBuffer f o e s).sym = [] := by rw [hsym, hx.1]
    refine ⟨qs ++ [.esc b], ?_⟩
    rw [← List.append_assoc]
    exact {
      good := by
        intro p hpp
        rcases List.mem_append.1 hpp with hpp | hpp
        · exact hp.good p hpp
        · simp at hpp; subst hpp; exact hb
      out := by
        simp only [Format.act]
        rw [renderAll_append, hp.out]
        simp [renderAll, Piece.render]
      files := by
        simp only [Format.act]
        rw [filesAll_append, hp.files]
        simp [filesAll, Piece.file]
      names := by
        simp only [Format.act]
        rw [filesAll_append, hp.names]
        simp [filesAll, Piece.file]
      plain := by
        have h3 := hp.plain
        rw [hbuf, hs0, List.append_nil, List.append_nil] at h3
        simp only [Format.act]
        rw [plainAll_append, hbuf, hs0, List.append_nil, List.append_nil]
        exact h3.append (.refl f [b])
      nzb := by simp [Format.act, hbuf, hs0]
      vbuf := by simp only [Format.act, hbuf]; exact isValid_nil
      vrest := by simp only [Format.act, hs0, List.nil_append]; exact hx.2.2
      symE := hp.symE
      nz := hnz
      symEsc := hp.symEsc
      stack := hp.stack
      eoh := by
        intro hh
        refine ⟨?_, (hp.eoh hh).2⟩
        intro hm
        rcases List.mem_append.1 hm with hm | hm
        · exact (hp.eoh hh).1 hm
        · simp at hm }
  | other =>
    obtain ⟨b, rfl, hb⟩ := ha
    have hb0 : b ≠ 0 := fun h => h0 (by simp [h])
    have hcs : cstr [b] = [b] := cstr_eq h0
    obtain ⟨qs, hp, hbuf, hsym, hst⟩ := hi.print hf he
    have hsymEsc : ∀ c ∈ s.sym ++ [b], f.escape c = false ∧ c ≠ 0 := by
      intro c hcm
      rcases List.mem_append.1 hcm with h | h
      · exact ⟨hi.symEsc c h, fun h1 => hi.nzb (by rw [← h1]; simp [h])⟩
      · simp at h; rw [h]; exact ⟨hb, hb0⟩
    have hvr : isValid ((s.sym ++ [b]) ++ rest) = true := by simpa using hi.vrest
    have h3 := hp.plain
    rw [hbuf, hsym, List.append_nil] at h3
    have h4 := h3.append (.refl f [b])
    rw [List.append_assoc] at h4
    simp only [Format.act, hcs, hsym]
    split
    · rename_i hv
      refine ⟨qs ++ (s.sym ++ [b]).map .chr, ?_⟩
      rw [← List.append_assoc ps]
      exact hp.putChrs hbuf h4 hsymEsc (isValid_cancel hvr hv) rfl
    · rename_i hv
      refine ⟨qs, ?_⟩
      exact {
        good := hp.good, out := hp.out, files := hp.files, names := hp.names, vbuf := hp.vbuf, vrest := hvr, nz := hnz,
        stack := hp.stack, eoh := hp.eoh
        symEsc := fun c hc => (hsymEsc c hc).1
        plain := by simp only [hbuf, List.append_nil]; exact h4
        nzb := by simp only [hbuf, List.nil_append]; exact fun h => (hsymEsc 0 h).2 rfl
        symE := by intro h; exact absurd h (by simpa using hv) }
  | endComment =>
    obtain ⟨c, st, t, hst, hfin, hm⟩ := ha
    have hcr : c ∈ f.rules := hi.stack c (by rw [hst]; simp)
    have hr := hcut.resolve_left (by simp)
    have h2 := hi.append he hne hr.1 hr.2
    refine ⟨[], ?_⟩
    rw [List.append_nil]
    exact {
      good := h2.good, out := h2.out, files := h2.files, names := h2.names, plain := h2.plain, nzb := h2.nzb, vbuf := h2.vbuf,
      vrest := h2.vrest, symE := h2.symE, nz := h2.nz, symEsc := h2.symEsc, eoh := h2.eoh
      stack := fun q hq => h2.stack q (List.mem_of_mem_tail hq) }
  | inComment =>
    obtain ⟨b, rfl⟩ := ha
    have hcs : cstr [b] = [b] := cstr_eq h0
    have hvr : isValid ((s.sym ++ [b]) ++ rest) = true := by simpa using hi.vrest
    have h4 := hi.plain.append (.refl f [b])
    have hz : 0 ∉ s.buf ++ (s.sym ++ [b]) := by
      have := hi.nzb
      simp only [List.mem_append, not_or] at this ⊢
      exact ⟨this.1, this.2, h0⟩
    refine ⟨[], ?_⟩
    rw [List.append_nil]
    simp only [Format.act, hcs]
    split
    · rename_i hv
      exact {
        good := hi.good, out := hi.out, files := hi.files, names := hi.names, vbuf := isValid_append hi.vbuf hv, nz := hnz,
        stack := hi.stack, eoh := hi.eoh
        symEsc := by simp
        symE := by simp
        plain := by simpa using h4
        nzb := by simpa using hz
        vrest := by simp only [List.nil_append]; exact isValid_cancel hvr hv }
    · rename_i hv
      exact {
        good := hi.good, out := hi.out, files := hi.files, names := hi.names, vbuf := hi.vbuf, nz := hnz, vrest := hvr,
        stack := hi.stack, eoh := hi.eoh
        symE := by intro h; exact absurd h (by simpa using hv)
        plain := by simpa using h4
        nzb := hz
        symEsc := by
          intro c hcm
          rcases List.mem_append.1 hcm with h | h
          · exact hi.symEsc c h
          · simp at h
            subst h
            cases hce : f.escape c with
            | false => rfl
            | true =>
              exfalso
              have hc2 := hf.escAscii c hce
              have hx := text_valid hne hi.vrest hi.symE (.inr (by simpa using hc2)) (.inl (by simpa using hc2))
              rw [hx.1] at hv
              exact hv (isValid_ascii c hc2) }

theorem Inv.sym_ascii {f : Fmt} {o : Opts} {e : Env} {done rest : Bytes} {s : St} {ps : List Piece} {b : UInt8} {t : Bytes}
    (hi : Inv f o e done rest s ps) (h : s.sym = t ++ [b]) : 128 ≤ b.toNat := by
  apply Decidable.byContradiction
  intro hb
  have hv := hi.vrest
  have hb2 : b.toNat < 128 := by omega
  rw [h, List.append_assoc] at hv
  have h1 := isValid_split hv (by simpa using not_cont_ascii hb2)
  have h2 := hi.symE (by rw [h]; exact isValid_append h1.1 (isValid_ascii b hb2))
  rw [h] at h2
  simp at h2

/-- While a character is incomplete, no rule matches its last byte together with what follows. -/
def SymInv (f : Fmt) (rest : Bytes) (s : St) : Prop :=
  ∀ t z, s.sym = t ++ [z] → ∀ q ∈ lexRules f s.bol s.stack, ∀ j, 1 < j → j ≤ rest.length + 1 → ¬ q.1.Matches ((z :: rest).take j)

theorem lexRules_whole {f : Fmt} (hf : f.Plain) (bol : Bool) (stack : List Rule) (hst : ∀ r ∈ stack, r ∈ f.rules) (r : Re) (a : Act)
    (h : (r, a) ∈ lexRules f bol stack) : (a = .other ∨ a = .inComment) ∨ Whole r := by
  have hcls : ∀ p : UInt8 → Bool, (∀ b, p b = true → b.toNat < 128) → Whole (.cls p) := by
    intro p hp
    refine ⟨?_, ?_⟩
    · intro c s hm hc
      obtain ⟨b, hb, hpb⟩ := matches_cls hm
      simp at hb
      have := hp b hpb
      rw [← hb.1] at this
      omega
    · intro s c hm hc
      obtain ⟨b, hb, hpb⟩ := matches_cls hm
      have := hp b hpb
      have h2 := congrArg List.getLast? hb
      simp at h2
      rw [← h2] at this
      omega
  cases stack with
  | nil =>
    simp only [lexRules, List.mem_append, List.mem_map, List.mem_filter, List.mem_cons,
      Prod.mk.injEq, List.not_mem_nil, or_false] at h
    rcases h with (⟨q, ⟨hq, _⟩, rfl, rfl⟩ | ⟨q, hq, rfl, rfl⟩) | ⟨rfl, rfl⟩ | ⟨rfl, rfl⟩ | ⟨rfl, rfl⟩
    · exact .inr (hf.rules q hq).1
    · exact .inr (hf.replRe q hq)
    · exact .inr (hcls _ hf.spaceAscii)
    · exact .inr (hcls _ hf.escAscii)
    · exact .inl (.inl rfl)
  | cons c st =>
    simp only [lexRules, List.mem_append, List.mem_map, List.mem_filter, List.mem_cons, Prod.mk.injEq,
      List.not_mem_nil, or_false] at h
    rcases h with ⟨q, ⟨hq, _⟩, rfl, rfl⟩ | ⟨rfl, rfl⟩ | ⟨rfl, rfl⟩
    · exact .inr (hf.rules q ((mem_byPrio q _).1 hq)).1
    · right
      cases hc : c.fin with
      | none => exact ⟨fun c s hm => absurd hm (Re.matches_none _), fun s c hm => absurd hm (Re.matches_none _)⟩
      | some t => exact (hf.rules c (hst c (by simp))).2 t hc
    · exact .inl (.inr rfl)

theorem lexRules_bol {f : Fmt} (bol : Bool) (stack : List Rule) (q : Re × Act) (h : q ∈ lexRules f false stack) :
    q ∈ lexRules f bol stack := by
  have key : ∀ (P : Rule → Bool) (l : List Rule) (r : Rule),
      r ∈ l.filter (fun r => P r && (!r.bol || false)) → r ∈ l.filter (fun r => P r && (!r.bol || bol)) := by
    intro P l r hr
    simp only [List.mem_filter, Bool.or_false, Bool.and_eq_true, Bool.not_eq_true'] at hr
    simp [List.mem_filter, hr.1, hr.2.1, hr.2.2]
  have key2 : ∀ (l : List Rule) (r : Rule),
      r ∈ l.filter (fun r => (!r.bol || false)) → r ∈ l.filter (fun r => (!r.bol || bol)) := by
    intro l r hr
    simp only [List.mem_filter, Bool.or_false, Bool.not_eq_true'] at hr
    simp [List.mem_filter, hr.1, hr.2]
  cases stack with
  | nil =>
    simp only [lexRules, List.mem_append, List.mem_map] at h ⊢
    rcases h with (⟨r, hr, hq⟩ | h) | h
    · exact .inl (.inl ⟨r, key2 _ r hr, hq⟩)
    · exact .inl (.inr h)
    · exact .inr h
  | cons c st =>
    simp only [lexRules, List.mem_append, List.mem_map] at h ⊢
    rcases h with ⟨r, hr, hq⟩ | h
    · exact .inl ⟨r, key _ _ r hr, hq⟩
    · exact .inr h

/-- Where the text of a rule may begin and end. -/
theorem taken_cut {f : Fmt} (hf : f.Plain) {o : Opts} {e : Env} {done rest : Bytes} {s : St} {ps : List Piece} {n : Nat} {a : Act}
    (hi : Inv f o e done rest s ps) (hsym : SymInv f rest s) (ht : Taken (lexRules f s.bol s.stack) rest n a) :
    (a = .other ∨ a = .inComment) ∨ (s.sym = [] ∨ ∀ b ∈ (rest.take n).head?, b.toNat < 128) ∧
      ((∀ b ∈ (rest.take n).getLast?, b.toNat < 128) ∨ ∀ b ∈ (rest.drop n).head?, b.toNat < 128) := by
  obtain ⟨before, r, after, hr, hm, -⟩ := ht.rule
  have hmem : (r, a) ∈ lexRules f s.bol s.stack := by rw [hr]; simp
  rcases lexRules_whole hf _ _ hi.stack r a hmem with h | hw
  · exact .inl h
  right
  constructor
  · rcases List.eq_nil_or_concat s.sym with h | ⟨t, z, hz⟩
    · exact .inl h
    · right
      intro b hb
      apply Decidable.byContradiction
      intro hb2
      rw [List.concat_eq_append] at hz
      have hz2 := hi.sym_ascii hz
      cases hx : rest.take n with
      | nil => rw [hx] at hb; simp at hb
      | cons c u =>
        rw [hx] at hb hm
        simp at hb
        subst hb
        have h3 := hw.start c u hm (by omega) z hz2
        have hpos := ht.pos
        have hle := ht.le
        refine hsym t z hz (r, a) hmem (n + 1) (by omega) (by omega) ?_
        rw [List.take_succ_cons, hx]
        exact h3
  · cases hx : rest.drop n with
    | nil => right; simp
    | cons b u =>
      by_cases hb : b.toNat < 128
      · right; simpa using hb
      · left
        intro c hc
        apply Decidable.byContradiction
        intro hc2
        rcases List.eq_nil_or_concat (rest.take n) with h | ⟨t, z, hz⟩
        · rw [h] at hc; simp at hc
        · rw [List.concat_eq_append] at hz
          rw [hz] at hc hm
          simp at hc
          subst hc
          have h3 := hw.stop t z hm (by omega) b (by omega)
          have hlen : n + 1 ≤ rest.length := by
            have := congrArg List.length hx
            simp at this
            omega
          refine ht.longest (r, a) hmem (n + 1) (by omega) hlen ?_
          have h5 : rest.take (n + 1) = t ++ [z, b] := by
            have h6 : rest = (t ++ [z]) ++ b :: u := by rw [← hz, ← hx, List.take_append_drop]
            have h7 : (t ++ [z]).length = n := by rw [← hz, List.length_take]; omega
            rw [h6, List.take_append, h7, List.take_of_length_le (by omega)]
            simp [show n + 1 - n = 1 from by omega]
          simp only
          rw [h5]
          exact h3

theorem printBuffer_sym (f : Fmt) (o : Opts) (e : Env) (s : St) :
    (printBuffer f o e s).sym = s.sym ∧ (printBuffer f o e s).stack = s.stack := by
  unfold printBuffer flushBuf preDot dotMark eohMark
  constructor <;> repeat' split
  all_goals rfl

/-- What an action does to the incomplete character. -/
theorem act_sym (f : Fmt) (o : Opts) (e : Env) (a : Act) (text : Bytes) (s : St) :
    ((act f o e a text s).sym = s.sym ∧ a ≠ .other ∧ a ≠ .inComment) ∨ (act f o e a text s).sym = [] ∨
    ((act f o e a text s).sym = s.sym ++ cstr text ∧ (act f o e a text s).stack = s.stack ∧ (a = .other ∨ a = .inComment)) := by
  cases a with
  | fmt r => left; simp only [Format.act]; split <;> simp [appendBuf]
  | repl t =>
    left; simp only [Format.act]; split
    · simp [(printBuffer_sym f o e s).1]
    · simp [appendBuf]
  | space => left; simp [Format.act, appendBuf]
  | esc => left; simp [Format.act, (printBuffer_sym f o e s).1]
  | endComment => left; simp [Format.act, appendBuf]
  | other =>
    right
    simp only [Format.act]
    split
    · left; rfl
    · right; simp [(printBuffer_sym f o e s).1, (printBuffer_sym f o e s).2]
  | inComment =>
    right
    simp only [Format.act]
    split
    · left; rfl
    · right; simp

/-- One turn of the lexer, up to the output. -/
theorem Inv.turn {f : Fmt} (hf : f.Plain) {o : Opts} {e : Env} (he : e.Ok) {done r : Bytes} {b : UInt8} {s : St}
    {ps : List Piece} (hi : Inv f o e done (b :: r) s ps) (hsym : SymInv f (b :: r) s) :
    ∃ k a, pick (lexRules f s.bol s.stack) (b :: r) = some (k, a) ∧ Taken (lexRules f s.bol s.stack) (b :: r) k a ∧
      ActOk f s.stack ((b :: r).take k) a ∧
      ((a = .other ∨ a = .inComment) ∨ (s.sym = [] ∨ ∀ x ∈ ((b :: r).take k).head?, x.toNat < 128) ∧
        ((∀ x ∈ ((b :: r).take k).getLast?, x.toNat < 128) ∨ ∀ x ∈ ((b :: r).drop k).head?, x.toNat < 128)) ∧
      (b :: r).take k ≠ [] ∧
      (∃ qs, Inv f o e (done ++ (b :: r).take k) ((b :: r).drop k) (Format.act f o e a ((b :: r).take k) s) (ps ++ qs)) ∧
      SymInv f ((b :: r).drop k)
        { Format.act f o e a ((b :: r).take k) s with bol := decide (((b :: r).take k).getLast? = some 0x0A) } := by
  obtain ⟨k, a, hpk⟩ := pick_isSome hf s.bol s.stack b r
  have ht := pick_some _ _ _ _ hpk
  have hok := actOk_of_taken f _ _ _ _ _ ht
  have hcut := taken_cut hf hi hsym ht
  have hsplit : (b :: r) = (b :: r).take k ++ (b :: r).drop k := (List.take_append_drop _ _).symm
  have hne : (b :: r).take k ≠ [] := by
    have := ht.pos
    obtain ⟨k, rfl⟩ : ∃ j, k = j + 1 := ⟨k - 1, by omega⟩
    simp
  have hi2 : Inv f o e done ((b :: r).take k ++ (b :: r).drop k) s ps := by rw [← hsplit]; exact hi
  obtain ⟨qs, h1⟩ := hi2.act hf he hne a hok hcut
  have hsym2 : SymInv f ((b :: r).drop k)
      { Format.act f o e a ((b :: r).take k) s with bol := decide (((b :: r).take k).getLast? = some 0x0A) } := by
    intro t z htz q hq j hj hj2
    simp only at htz hq
    have hz128 := h1.sym_ascii htz
    have h0 : 0 ∉ (b :: r).take k := fun h => hi2.nz (List.mem_append_right _ (List.mem_append_left _ h))
    rcases act_sym f o e a ((b :: r).take k) s with ⟨h2, h3, h4⟩ | h2 | ⟨h2, h3, h4⟩
    · rcases hcut with h5 | ⟨h5, h6⟩
      · exact absurd h5 (by simp [h3, h4])
      · have h7 := text_valid hne hi2.vrest hi2.symE h5 h6
        rw [h2, h7.1] at htz
        simp at htz
    · rw [h2] at htz; simp at htz
    · have h5 : ∃ c, (b :: r).take k = [c] := by
        rcases h4 with rfl | rfl
        · obtain ⟨c, hc, _⟩ := hok; exact ⟨c, hc⟩
        · exact hok
      obtain ⟨c, hc⟩ := h5
      rw [cstr_eq h0, htz, hc] at h2
      have h6 := congrArg List.getLast? h2
      simp at h6
      subst h6
      have hk : k = 1 := by
        have h8 := ht.le
        have h9 := congrArg List.length hc
        simp only [List.length_take, List.length_cons, List.length_nil] at h9 h8
        omega
      subst hk
      simp only [List.take_succ_cons, List.take_zero, List.cons.injEq, and_true] at hc
      subst hc
      rw [h3] at hq
      have hnl : (decide (((b :: r).take 1).getLast? = some 0x0A)) = false := by
        simp
        intro h9
        rw [h9] at hz128
        simp at hz128
      rw [hnl] at hq
      have := ht.longest q (lexRules_bol _ _ _ hq) j hj (by simpa using hj2)
      simpa using this
  exact ⟨k, a, hpk, ht, hok, hcut, hne, ⟨qs, h1⟩, hsym2⟩

theorem Inv.loop {f : Fmt} (hf : f.Plain) {o : Opts} {e : Env} (he : e.Ok) (n : Nat) {done rest : Bytes} {s : St}
    {ps : List Piece} (hi : Inv f o e done rest s ps) (hn : rest.length ≤ n) (hsym : SymInv f rest s) :
    ∃ qs, Inv f o e (done ++ rest) [] (lexLoop f o e n rest s) (ps ++ qs) := by
  induction n generalizing done rest s ps with
  | zero =>
    have : rest = [] := by cases rest <;> simp_all
    subst this
    exact ⟨[], by simpa [lexLoop] using hi⟩
  | succ n ih =>
    cases rest with
    | nil => exact ⟨[], by simpa [lexLoop] using hi⟩
    | cons b r =>
      obtain ⟨k, a, hpk, ht, -, -, -, ⟨qs, h1⟩, hsym2⟩ := hi.turn hf he hsym
      have hlen : ((b :: r).drop k).length ≤ n := by
        have := ht.pos
        simp only [List.length_drop, List.length_cons] at hn ⊢
        omega
      obtain ⟨qs2, h3⟩ := ih (h1.setBol _) hlen hsym2
      refine ⟨qs ++ qs2, ?_⟩
      simp only [lexLoop, Format.turn, hpk]
      rw [List.append_assoc done, List.take_append_drop, List.append_assoc ps] at h3
      exact h3

/-- **The deformatter writes a stream of good pieces that stand for its input**, with its entities decoded. -/
theorem deformat_pieces {f : Fmt} (hf : f.Plain) (o : Opts) {e : Env} (he : e.Ok) (input : Bytes)
    (hv : isValid input = true) (h0 : 0 ∉ input) :
    ∃ ps : List Piece, (∀ p ∈ ps, p.Good f) ∧ (deformat f o e input).out = renderAll f o ps ∧
      (deformat f o e input).files = filesAll ps ∧ Decoded f input (plainAll ps) ∧ ((filesAll ps).map (·.1)).Nodup ∧
      ((o.markEoh = false ∨ ∀ r ∈ f.rules, r.eoh = false) → Piece.hmark ∉ ps) := by
  have hi : Inv f o e [] input {} [] := by
    refine ⟨by simp, by simp [renderAll], by simp [filesAll], by simp [filesAll], by simpa [plainAll] using .nil, by simp,
      isValid_nil, by simpa using hv, by simp, by simpa using h0, by simp, by simp, by simp⟩
  obtain ⟨qs, h1⟩ := hi.loop hf he input.length (Nat.le_refl _) (by intro t z h; simp at h)
  simp only [List.nil_append] at h1
  generalize hs : lexLoop f o e input.length input {} = s at h1
  have hsym : s.sym = [] := h1.symE (by simpa using h1.vrest)
  obtain ⟨q2, hq2⟩ := preDot_printed f o e { s with isDot := true }
  have hbuf : (preDot o { s with isDot := true }).buf = s.buf := by unfold preDot; split <;> rfl
  have hz : 0 ∉ s.buf := fun h => h1.nzb (by simp [h])
  obtain ⟨q3, hq3, hb3⟩ := printBuffer_printed hf o he (preDot o { s with isDot := true }) (by rw [hbuf]; exact h1.vbuf)
    (by rw [hbuf]; exact hz)
  have hq := hq2.trans hq3
  have hd : deformat f o e input = printBuffer f o e (preDot o { s with isDot := true }) := by
    unfold deformat atEof; rw [hs]
  rw [hd]
  refine ⟨qs ++ (q2 ++ q3), ?_, ?_, ?_, ?_, ?_, ?_⟩
  · intro p hp
    rcases List.mem_append.1 hp with hp | hp
    · exact h1.good p hp
    · exact hq.good p hp
  · rw [renderAll_append f o qs, hq.out]; simp only; rw [h1.out]
  · rw [filesAll_append qs, hq.files]; simp only; rw [h1.files]
  · rw [plainAll_append]
    have := hq.plain
    rw [hb3, List.append_nil] at this
    rw [this]
    have := h1.plain
    rw [hsym, List.append_nil] at this
    exact this
  · have hn := hq.names
    simp only at hn
    rw [h1.names] at hn
    rw [filesAll_append, List.map_append, ← hn]
    rw [List.Nodup, List.pairwise_map]
    refine List.Pairwise.imp ?_ (List.nodup_range (n := (printBuffer f o e (preDot o { s with isDot := true })).made))
    intro a b hab hc
    exact hab (he.inj _ _ hc)
  · intro hh hx
    have h5 := h1.eoh hh
    rcases List.mem_append.1 hx with hx | hx
    · exact h5.1 hx
    · have h6 := hq.hm hx
      simp only at h6
      rw [h5.2 h6.1] at h6
      exact absurd h6.2 (by simp)

end Verif.Format
