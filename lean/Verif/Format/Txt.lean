import Verif.Format.Props
/-!
# C67: what the text deformatter writes

A direct description of the stream for the format txt, and the proof that the generated lexer writes it.
-/
namespace Verif.Format

/-- The white space of the format txt: the space, the newline, the tabulator, the carriage return and the tilde. -/
def isWhite (b : UInt8) : Bool := decide (b = 0x20 ∨ b = 0x0A ∨ b = 0x09 ∨ b = 0x0D ∨ b = 0x7E)

/-- The characters that have a meaning in the stream: `] [ \ / @ < > ^ $ { }`. -/
def isSpecial (b : UInt8) : Bool := (bytes "][\\/@<>^${}").contains b

/-- An empty line somewhere in the white space: `\n\n`, or `\r\n\r\n`. -/
def emptyLine : Bytes → Bool
  | [] => false
  | b :: w => decide ((b :: w).take 2 = [0x0A, 0x0A] ∨ (b :: w).take 4 = [0x0D, 0x0A, 0x0D, 0x0A]) || emptyLine w

/-- How the white space between two words is written: nothing and a single space as they are; with `-i`, everything else after
an end-of-sentence mark; more than 8192 characters in a file, of which the name is written; else in brackets. -/
def txtBlank (o : Opts) (name : Bytes) (w : Bytes) : Bytes :=
  if w = [] ∨ w = [0x20] then w
  else (if o.eosIncond then mark o else []) ++
    (if w.length > 8192 then [0x5B, 0x40] ++ name ++ [0x5D] else [0x5B] ++ w ++ [0x5D])

/-- The stream: `w` is the white space just before, `k` the number of files written.  A paragraph ends with a mark before its
white space, and so does the document. -/
def txtStream (o : Opts) (e : Env) : Nat → Bytes → Bytes → Bytes
  | k, w, [] => mark o ++ txtBlank o (e.tmp k) w
  | k, w, b :: r =>
    if isWhite b then txtStream o e k (w ++ [b]) r
    else (if emptyLine w && !o.eosIncond then mark o else []) ++ txtBlank o (e.tmp k) w ++
      (if isSpecial b then [0x5C, b] else [b]) ++ txtStream o e (if w.length > 8192 then k + 1 else k) [] r

/-! ## The lexer -/

theorem u8_all (P : UInt8 → Prop) [DecidablePred P] (h : ∀ i : Fin 256, P (UInt8.ofNat i.val)) (b : UInt8) : P b := by
  have := h ⟨b.toNat, b.toNat_lt⟩
  simpa using this

theorem txt_space (b : UInt8) : txt.space b = isWhite b := by
  revert b; intro b
  exact u8_all (fun b => txt.space b = isWhite b) (by decide +kernel) b
theorem txt_escape (b : UInt8) : txt.escape b = isSpecial b :=
  u8_all (fun b => txt.escape b = isSpecial b) (by decide +kernel) b
theorem white_special (b : UInt8) (h : isWhite b = true) : isSpecial b = false :=
  u8_all (fun b => isWhite b = true → isSpecial b = false) (by decide +kernel) b h

theorem longest_cls (p : UInt8 → Bool) (b : UInt8) (r : Bytes) : (Re.cls p).longest (b :: r) = if p b then 1 else 0 := by
  unfold Re.longest
  simp only [Re.longestFrom, Re.deriv]
  by_cases hp : p b = true
  · simp only [hp, if_true, Re.nullable]
    cases r with
    | nil => simp [Re.longestFrom]
    | cons c r =>
      simp only [Re.longestFrom, Re.deriv]
      cases r <;> simp [Re.longestFrom, Re.nullable]
  · simp only [hp, if_false]
    cases r <;> simp [Re.longestFrom, Re.nullable]

/-- The expression of the format. -/
abbrev paraRe : Re := txtRule1.re

theorem starts_cls {p : UInt8 → Bool} {s : Bytes} : (Re.cls p).Matches s ↔ ∃ b, s = [b] ∧ p b = true := by
  constructor
  · exact matches_cls
  · rintro ⟨b, rfl, h⟩; exact .cls h

/-- A literal of bytes that are not letters matches itself only. -/
theorem seqs_lit (l : Bytes) (hl : ∀ c ∈ l, ∀ b : UInt8, (b = c ∨ swapCase b = c) ↔ b = c) (s : Bytes) :
    (seqs (l.map (fun c => Re.cls (fun b => decide (b = c ∨ swapCase b = c))))).Matches s ↔ s = l := by
  induction l generalizing s with
  | nil =>
    constructor
    · intro h; cases h; rfl
    · rintro rfl; exact .eps
  | cons c l ih =>
    have ih := ih (fun x hx => hl x (by simp [hx]))
    have hc := hl c (by simp)
    cases l with
    | nil =>
      simp only [List.map_cons, List.map_nil, seqs]
      rw [starts_cls]
      constructor
      · rintro ⟨b, rfl, hb⟩
        rw [(hc b).1 (of_decide_eq_true hb)]
      · rintro rfl; exact ⟨c, rfl, decide_eq_true ((hc c).2 rfl)⟩
    | cons d l =>
      have : seqs ((c :: d :: l).map (fun c => Re.cls (fun b => decide (b = c ∨ swapCase b = c)))) =
          .seq (.cls (fun b => decide (b = c ∨ swapCase b = c)))
            (seqs ((d :: l).map (fun c => Re.cls (fun b => decide (b = c ∨ swapCase b = c))))) := rfl
      rw [this]
      constructor
      · intro h
        cases h with
        | seq h1 h2 =>
          obtain ⟨b, rfl, hb⟩ := starts_cls.1 h1
          rw [(ih _).1 h2, (hc b).1 (of_decide_eq_true hb)]
          rfl
      · rintro rfl
        exact .seq (s := [c]) (starts_cls.2 ⟨c, rfl, decide_eq_true ((hc c).2 rfl)⟩) ((ih _).2 rfl)

theorem lit_nl (s : Bytes) : (lit "\n\n").Matches s ↔ s = [0x0A, 0x0A] := by
  have hb : bytes "\n\n" = [0x0A, 0x0A] := by decide +kernel
  unfold lit
  rw [hb]
  apply seqs_lit
  intro c hc b
  have h2 : c = 0x0A := by simpa using hc
  subst h2
  exact u8_all (fun b => (b = 0x0A ∨ swapCase b = 0x0A) ↔ b = 0x0A) (by decide +kernel) b

theorem lit_crnl (s : Bytes) : (lit "\r\n\r\n").Matches s ↔ s = [0x0D, 0x0A, 0x0D, 0x0A] := by
  have hb : bytes "\r\n\r\n" = [0x0D, 0x0A, 0x0D, 0x0A] := by decide +kernel
  unfold lit
  rw [hb]
  apply seqs_lit
  intro c hc b
  have h2 : c = 0x0D ∨ c = 0x0A := by
    simp only [List.mem_cons, List.not_mem_nil, or_false] at hc
    rcases hc with h | h | h | h <;> simp [h]
  rcases h2 with rfl | rfl
  · exact u8_all (fun b => (b = 0x0D ∨ swapCase b = 0x0D) ↔ b = 0x0D) (by decide +kernel) b
  · exact u8_all (fun b => (b = 0x0A ∨ swapCase b = 0x0A) ↔ b = 0x0A) (by decide +kernel) b

/-- Both cases of an empty line. -/
abbrev paraOne : Re := .alt (lit "\n\n") (lit "\r\n\r\n")

theorem paraOne_iff (s : Bytes) : paraOne.Matches s ↔ s = [0x0A, 0x0A] ∨ s = [0x0D, 0x0A, 0x0D, 0x0A] := by
  rw [Re.matches_alt, lit_nl, lit_crnl]

/-- What the rule can match: white space that begins with an empty line. -/
theorem paraRe_sound (s : Bytes) (h : paraRe.Matches s) :
    (∀ b ∈ s, isWhite b = true) ∧ (s.take 2 = [0x0A, 0x0A] ∨ s.take 4 = [0x0D, 0x0A, 0x0D, 0x0A]) := by
  have hone : ∀ u, paraOne.Matches u → (∀ b ∈ u, isWhite b = true) := by
    intro u hu b hb
    rcases (paraOne_iff u).1 hu with rfl | rfl
    · simp at hb; subst hb; decide
    · simp at hb; rcases hb with rfl | rfl | rfl | rfl <;> decide
  have hstar : ∀ u, (Re.star paraOne).Matches u → (∀ b ∈ u, isWhite b = true) := by
    intro u hu
    generalize hr : Re.star paraOne = r at hu
    induction hu with
    | eps => cases hr
    | cls _ => cases hr
    | seq _ _ => cases hr
    | altL _ => cases hr
    | altR _ => cases hr
    | star0 => simp
    | star1 h1 _ _ ih2 =>
      cases hr
      intro b hb
      rcases List.mem_append.1 hb with hb | hb
      · exact hone _ h1 b hb
      · exact ih2 rfl b hb
  have hre : paraRe = .seq paraOne (.star paraOne) := rfl
  rw [hre] at h
  cases h with
  | @seq _ _ u v h1 h2 =>
    constructor
    · intro b hb
      rcases List.mem_append.1 hb with hb | hb
      · exact hone u h1 b hb
      · exact hstar v h2 b hb
    · rcases (paraOne_iff u).1 h1 with rfl | rfl
      · left; simp
      · right; simp

theorem paraRe_complete (s : Bytes) (h : s.take 2 = [0x0A, 0x0A] ∨ s.take 4 = [0x0D, 0x0A, 0x0D, 0x0A]) :
    0 < paraRe.longest s := by
  have hre : paraRe = .seq paraOne (.star paraOne) := rfl
  have hm : ∀ u, paraOne.Matches u → paraRe.Matches u := by
    intro u hu
    rw [hre]
    simpa using Re.Matches.seq hu .star0
  rcases paraRe.longest_spec s with h1 | h1
  · exfalso
    rcases h with h | h
    · have hl := congrArg List.length h
      simp at hl
      exact h1.2 2 (by omega) (by omega) (hm _ ((paraOne_iff _).2 (.inl h)))
    · have hl := congrArg List.length h
      simp at hl
      exact h1.2 4 (by omega) (by omega) (hm _ ((paraOne_iff _).2 (.inr h)))
  · exact h1.1

/-- The rule the lexer takes. -/
theorem pick_txt (bol : Bool) (b : UInt8) (r : Bytes) :
    pick (lexRules txt bol []) (b :: r) =
      if paraRe.longest (b :: r) ≠ 0 then some (paraRe.longest (b :: r), .fmt txtRule1)
      else if isWhite b then some (1, .space)
      else if isSpecial b then some (1, .esc)
      else some (1, .other) := by
  have hl : lexRules txt bol [] = [(paraRe, .fmt txtRule1), (.cls txt.space, .space), (.cls txt.escape, .esc),
      (.cls (fun b => decide (b ≠ 0x0A)), .other)] := by cases bol <;> rfl
  rw [hl]
  simp only [pick, longest_cls, txt_space, txt_escape]
  by_cases h10 : b = 0x0A
  · subst h10
    have hw : isWhite 0x0A = true := by decide
    have hs : isSpecial 0x0A = false := by decide +kernel
    simp only [hw, hs]
    by_cases hp : paraRe.longest (0x0A :: r) = 0
    · simp [hp]
    · simp [hp]
  · simp only [h10, ne_eq, not_false_eq_true, decide_true, if_true]
    by_cases hp : paraRe.longest (b :: r) = 0
    · cases hw : isWhite b <;> cases hs : isSpecial b <;> simp [hp]
    · cases hw : isWhite b <;> cases hs : isSpecial b <;> simp [hp] <;> try omega

/-! ## The proof -/

theorem u16size_ascii (s : Bytes) (h : ∀ b ∈ s, b.toNat < 128) : u16size s = s.length := by
  unfold u16size
  have h1 : s.filter (fun b => decide (b.toNat < 128 ∨ 192 ≤ b.toNat)) = s :=
    List.filter_eq_self.2 (fun b hb => decide_eq_true (.inl (h b hb)))
  have h2 : s.filter (fun b => decide (240 ≤ b.toNat)) = [] :=
    List.filter_eq_nil_iff.2 (fun b hb => by have := h b hb; simp; omega)
  rw [h1, h2]; rfl

theorem white_ascii (b : UInt8) (h : isWhite b = true) : b.toNat < 128 :=
  u8_all (fun b => isWhite b = true → b.toNat < 128) (by decide +kernel) b h

theorem quoted_white (w : Bytes) (h : ∀ b ∈ w, isWhite b = true) : quoted txt w = w := by
  cases w with
  | nil => rfl
  | cons b w =>
    have hb := h b (by simp)
    have h1 : txt.escape b = false := by rw [txt_escape]; exact white_special b hb
    have h2 : b ≠ 0x40 := by rintro rfl; exact absurd hb (by decide)
    simp only [quoted, h1, h2]
    simp only [Bool.false_eq_true, or_self, if_false, List.cons_append, List.nil_append, List.cons.injEq, true_and]
    have : ∀ u : Bytes, (∀ b ∈ u, isWhite b = true) → u.flatMap (fun c => if txt.escape c then [0x5C, c] else [c]) = u := by
      intro u
      induction u with
      | nil => simp
      | cons c u ih =>
        intro hu
        have hc : txt.escape c = false := by rw [txt_escape]; exact white_special c (hu c (by simp))
        simp only [List.flatMap_cons, hc, Bool.false_eq_true, if_false]
        rw [ih (fun x hx => hu x (by simp [hx]))]
        rfl
    exact this w (fun x hx => h x (by simp [hx]))

/-- Printing the white space. -/
theorem flush_txt (o : Opts) (e : Env) (s : St) (h : ∀ b ∈ s.buf, isWhite b = true) :
    (flushBuf txt o e s).out = s.out ++ txtBlank o (e.tmp s.made) s.buf ∧ (flushBuf txt o e s).buf = [] ∧
    (flushBuf txt o e s).made = (if s.buf.length > 8192 then s.made + 1 else s.made) ∧
    (flushBuf txt o e s).sym = s.sym ∧ (flushBuf txt o e s).isDot = s.isDot ∧ (flushBuf txt o e s).isEoh = s.isEoh ∧
    (flushBuf txt o e s).stack = s.stack ∧ (flushBuf txt o e s).bol = s.bol := by
  have hu := u16size_ascii s.buf (fun b hb => white_ascii b (h b hb))
  have hlarge : txt.large = 8192 := rfl
  have hpre : (preDot o s).out = s.out ++ (if o.eosIncond then mark o else []) ∧ (preDot o s).made = s.made ∧
      (preDot o s).sym = s.sym ∧ (preDot o s).isDot = s.isDot ∧ (preDot o s).isEoh = s.isEoh ∧
      (preDot o s).stack = s.stack ∧ (preDot o s).bol = s.bol ∧ (preDot o s).buf = s.buf := by
    unfold preDot; split <;> simp
  obtain ⟨p1, p2, p3, p4, p5, p6, p7, p8⟩ := hpre
  unfold flushBuf txtBlank
  rw [hu, hlarge]
  by_cases hbig : s.buf.length > 8192
  · have hne : ¬ (s.buf = [] ∨ s.buf = [0x20]) := by
      rintro (hh | hh) <;> rw [hh] at hbig <;> simp at hbig
    simp only [hbig, if_true, hne, if_false, p1, p2, p3, p4, p5, p6, p7, p8]
    simp
  · simp only [hbig, if_false]
    by_cases hsmall : s.buf = [] ∨ s.buf = [0x20]
    · have hc : ¬ (s.buf.length > 1 ∨ (s.buf.length = 1 ∧ s.buf ≠ [0x20])) := by
        rcases hsmall with hh | hh <;> simp [hh]
      simp only [hc, hsmall, if_true, if_false]
      simp
    · have hc : s.buf.length > 1 ∨ (s.buf.length = 1 ∧ s.buf ≠ [0x20]) := by
        simp only [not_or] at hsmall
        have : s.buf.length ≠ 0 := fun hh => hsmall.1 (List.length_eq_zero_iff.1 hh)
        by_cases h1 : s.buf.length = 1
        · exact .inr ⟨h1, hsmall.2⟩
        · left; omega
      have hne : s.buf ≠ [] := fun hh => hsmall (.inl hh)
      simp only [hc, hsmall, if_true, if_false, p1, p2, p3, p4, p5, p6, p7, p8]
      rw [superblank_eq txt _ hne, quoted_white _ h]
      simp

theorem print_txt (o : Opts) (e : Env) (s : St) (h : ∀ b ∈ s.buf, isWhite b = true) (heoh : s.isEoh = false) :
    (printBuffer txt o e s).out =
      s.out ++ (if s.isDot && !o.eosIncond then mark o else []) ++ txtBlank o (e.tmp s.made) s.buf ∧
    (printBuffer txt o e s).buf = [] ∧
    (printBuffer txt o e s).made = (if s.buf.length > 8192 then s.made + 1 else s.made) ∧
    (printBuffer txt o e s).sym = s.sym ∧ (s.isDot = false ∨ o.eosIncond = false → (printBuffer txt o e s).isDot = false) ∧
    (printBuffer txt o e s).isEoh = false ∧ (printBuffer txt o e s).stack = s.stack := by
  unfold printBuffer
  have h1 : eohMark o s = s := by unfold eohMark; simp [heoh]
  rw [h1]
  unfold dotMark
  split
  · rename_i hd
    have := flush_txt o e { s with out := s.out ++ mark o, isDot := false } h
    simp only at this
    obtain ⟨a, b, c, d, f, g, i, j⟩ := this
    refine ⟨by rw [a, List.append_assoc], b, c, d, fun _ => f, by rw [g]; exact heoh, i⟩
  · rename_i hd
    obtain ⟨a, b, c, d, f, g, i, j⟩ := flush_txt o e s h
    refine ⟨by rw [a]; simp, b, c, d, ?_, by rw [g]; exact heoh, i⟩
    intro hx
    rw [f]
    simp only [Bool.and_eq_true, Bool.not_eq_true', not_and, Bool.not_eq_false] at hd
    rcases hx with hx | hx
    · exact hx
    · cases hdd : s.isDot with
      | false => rfl
      | true => rw [hd hdd] at hx; cases hx

theorem emptyLine_cons (b : UInt8) (w : Bytes) :
    emptyLine (b :: w) = (decide ((b :: w).take 2 = [0x0A, 0x0A] ∨ (b :: w).take 4 = [0x0D, 0x0A, 0x0D, 0x0A]) || emptyLine w) := rfl

/-- White space at the beginning of what is left. -/
theorem txtStream_white (o : Opts) (e : Env) (k : Nat) (w t r : Bytes) (h : ∀ b ∈ t, isWhite b = true) :
    txtStream o e k w (t ++ r) = txtStream o e k (w ++ t) r := by
  induction t generalizing w with
  | nil => simp
  | cons b t ih =>
    rw [List.cons_append, txtStream, if_pos (h b (by simp)), ih _ (fun x hx => h x (by simp [hx]))]
    simp

theorem take_takeWhile (p : UInt8 → Bool) (y l : Bytes) (hl : ∀ b ∈ l, p b = true) (h : y.take l.length = l) :
    (y.takeWhile p).take l.length = l := by
  induction l generalizing y with
  | nil => simp
  | cons c l ih =>
    cases y with
    | nil => simp at h
    | cons b y =>
      simp only [List.length_cons, List.take_succ_cons, List.cons.injEq] at h
      obtain ⟨rfl, h⟩ := h
      have hb := hl b (by simp)
      rw [List.takeWhile_cons_of_pos hb, List.length_cons, List.take_succ_cons, ih y (fun x hx => hl x (by simp [hx])) h]

/-- What is known between two turns. -/
structure TInv (rest : Bytes) (s : St) : Prop where
  white : ∀ b ∈ s.buf, isWhite b = true
  stack : s.stack = []
  eoh : s.isEoh = false
  sym : isValid s.sym = true → s.sym = []
  valid : isValid (s.sym ++ rest) = true
  excl : s.sym ≠ [] → s.buf = []
  nul : 0 ∉ rest ∧ 0 ∉ s.sym

theorem txt_eof (o : Opts) (e : Env) (s : St) (hi : TInv [] s) :
    (atEof txt o e s).out = s.out ++ s.sym ++ txtStream o e s.made s.buf [] := by
  have hsym : s.sym = [] := hi.sym (by simpa using hi.valid)
  simp only [txtStream, hsym, List.append_nil]
  unfold atEof
  cases hinc : o.eosIncond with
  | true =>
    have h1 : preDot o { s with isDot := true } = { s with isDot := true, out := s.out ++ mark o } := by
      unfold preDot; simp [hinc]
    rw [h1, (print_txt o e { s with isDot := true, out := s.out ++ mark o } hi.white hi.eoh).1]
    simp [hinc]
  | false =>
    have h1 : preDot o { s with isDot := true } = { s with isDot := true } := by unfold preDot; simp [hinc]
    rw [h1, (print_txt o e { s with isDot := true } hi.white hi.eoh).1]
    simp [hinc]

theorem txt_loop (o : Opts) {e : Env} (he : e.Ok) (n : Nat) (rest : Bytes) (s : St) (hn : rest.length ≤ n) (hi : TInv rest s)
    (hd : o.eosIncond = false → emptyLine (s.buf ++ rest.takeWhile isWhite) = (s.isDot || emptyLine (rest.takeWhile isWhite)))
    (hsp : ∀ b ∈ s.sym, isSpecial b = false) :
    (atEof txt o e (lexLoop txt o e n rest s)).out = s.out ++ s.sym ++ txtStream o e s.made s.buf rest := by
  induction n generalizing rest s with
  | zero =>
    have : rest = [] := by cases rest <;> simp_all
    subst this
    exact txt_eof o e s hi
  | succ n ih =>
    cases rest with
    | nil => exact txt_eof o e s hi
    | cons b r =>
      have hpick := pick_txt s.bol b r
      have hascii : isWhite b = true ∨ isSpecial b = true → s.sym = [] ∧ isValid [b] = true ∧ isValid r = true := by
        intro hb
        have hb2 : b.toNat < 128 := by
          rcases hb with hb | hb
          · exact white_ascii b hb
          · exact txt_plain.escAscii b (by rw [txt_escape]; exact hb)
        exact text_valid (text := [b]) (by simp) hi.valid hi.sym (.inr (by simpa using hb2)) (.inl (by simpa using hb2))
      simp only [lexLoop, turn, hi.stack, hpick]
      by_cases hpara : paraRe.longest (b :: r) ≠ 0
      · -- the rule of the format
        simp only [hpara, ne_eq, not_false_eq_true, if_true]
        generalize hk : paraRe.longest (b :: r) = k at hpara
        have hmt : paraRe.Matches ((b :: r).take k) ∧ k ≤ (b :: r).length := by
          rcases paraRe.longest_spec (b :: r) with h1 | h1
          · rw [hk] at h1; exact absurd h1.1 hpara
          · rw [hk] at h1; exact ⟨h1.2.2.1, h1.2.1⟩
        obtain ⟨hw, hst⟩ := paraRe_sound _ hmt.1
        generalize ht : (b :: r).take k = t at *
        generalize hr : (b :: r).drop k = r2 at *
        have hsplit : b :: r = t ++ r2 := by rw [← ht, ← hr, List.take_append_drop]
        have htne : t ≠ [] := by rintro rfl; simp at hst
        have htascii : ∀ x ∈ t, x.toNat < 128 := fun x hx => white_ascii x (hw x hx)
        have hv := hi.valid
        rw [hsplit] at hv
        have htv := text_valid htne hv hi.sym (.inr (fun x hx => htascii x (List.mem_of_mem_head? hx)))
          (.inl (fun x hx => htascii x (List.mem_of_mem_getLast? hx)))
        have h0t : 0 ∉ t := by
          intro h
          apply hi.nul.1
          rw [hsplit]; simp [h]
        have hact : act txt o e (.fmt txtRule1) t s = { s with buf := s.buf ++ t, isDot := true } := by
          have h1 : txtRule1.fin.isSome = false := rfl
          have h2 : txtRule1.eos = true := rfl
          have h3 : txtRule1.eoh = false := rfl
          simp only [act, h1, h2, h3, appendBuf, cstr_eq h0t, he.toU _ htv.2.1]
          simp
        rw [hact]
        have hlen : r2.length ≤ n := by
          have h1 := congrArg List.length hsplit
          have h2 : t.length ≠ 0 := fun h => htne (List.length_eq_zero_iff.1 h)
          simp only [List.length_cons, List.length_append] at h1 hn
          omega
        rw [ih r2 _ hlen]
        · simp only [htv.1, List.append_nil]
          rw [hsplit, txtStream_white _ _ _ _ _ _ hw]
        · exact {
            white := by
              intro x hx
              rcases List.mem_append.1 hx with hx | hx
              · exact hi.white x hx
              · exact hw x hx
            stack := hi.stack, eoh := hi.eoh, sym := hi.sym
            valid := by simp only [htv.1, List.nil_append]; exact htv.2.2
            excl := by simp [htv.1]
            nul := ⟨fun h => hi.nul.1 (by rw [hsplit]; simp [h]), hi.nul.2⟩ }
        · intro hinc
          have h1 := hd hinc
          have htw : (b :: r).takeWhile isWhite = t ++ r2.takeWhile isWhite := by
            rw [hsplit, List.takeWhile_append_of_pos hw]
          rw [htw] at h1
          simp only [Bool.true_or]
          rw [List.append_assoc, h1]
          have h2 : emptyLine (t ++ r2.takeWhile isWhite) = true := by
            cases t with
            | nil => exact absurd rfl htne
            | cons c t =>
              rw [List.cons_append, emptyLine_cons]
              have : ((c :: (t ++ r2.takeWhile isWhite)).take 2 = [0x0A, 0x0A] ∨
                  (c :: (t ++ r2.takeWhile isWhite)).take 4 = [0x0D, 0x0A, 0x0D, 0x0A]) := by
                have key : ∀ (m : Nat) (l : Bytes), l.length = m → (c :: t).take m = l →
                    (c :: (t ++ r2.takeWhile isWhite)).take m = l := by
                  intro m l hl hh
                  have hm : m ≤ (c :: t).length := by
                    have := congrArg List.length hh
                    rw [List.length_take] at this
                    omega
                  rw [← List.cons_append, List.take_append_of_le_length hm]
                  exact hh
                rcases hst with h | h
                · exact .inl (key 2 _ rfl h)
                · exact .inr (key 4 _ rfl h)
              rw [decide_eq_true this]; rfl
          rw [h2]; simp
        · exact hsp
      · simp only [hpara, if_false]
        have hnot : ¬ ((b :: r).take 2 = [0x0A, 0x0A] ∨ (b :: r).take 4 = [0x0D, 0x0A, 0x0D, 0x0A]) := by
          intro h
          exact hpara (by have := paraRe_complete _ h; omega)
        have hlen : r.length ≤ n := by simpa using hn
        have h0b : b ≠ 0 := fun h => hi.nul.1 (by simp [h])
        have h0r : 0 ∉ r := fun h => hi.nul.1 (by simp [h])
        have hcs : cstr [b] = [b] := cstr_eq (by simpa using fun h => h0b h.symm)
        cases hwb : isWhite b with
        | true =>
          obtain ⟨hs0, hvb, hvr⟩ := hascii (.inl hwb)
          have hact : act txt o e .space [b] s = { s with buf := s.buf ++ [b] } := by
            simp only [act, appendBuf, hcs, he.toU _ hvb]
          simp only [if_true, List.drop_succ_cons, List.drop_zero, List.take_succ_cons, List.take_zero]
          rw [hact, ih r _ hlen]
          · simp only [txtStream, hwb, if_true]
          · exact {
              white := by
                intro x hx
                rcases List.mem_append.1 hx with hx | hx
                · exact hi.white x hx
                · simp at hx; subst hx; exact hwb
              stack := hi.stack, eoh := hi.eoh, sym := hi.sym
              valid := by simp only [hs0, List.nil_append]; exact hvr
              excl := by simp [hs0]
              nul := ⟨h0r, hi.nul.2⟩ }
          · intro hinc
            have h1 := hd hinc
            rw [List.takeWhile_cons_of_pos hwb] at h1
            simp only [List.append_assoc, List.cons_append, List.nil_append]
            rw [h1, emptyLine_cons]
            have : ¬ ((b :: r.takeWhile isWhite).take 2 = [0x0A, 0x0A] ∨
                (b :: r.takeWhile isWhite).take 4 = [0x0D, 0x0A, 0x0D, 0x0A]) := by
              have key : ∀ (m : Nat) (l : Bytes), l.length = m → (b :: r.takeWhile isWhite).take m = l → (b :: r).take m = l := by
                intro m l hl hh
                have hpre : (b :: r) = (b :: r.takeWhile isWhite) ++ r.dropWhile isWhite := by
                  rw [List.cons_append, List.takeWhile_append_dropWhile]
                rw [hpre, List.take_append_of_le_length]
                · exact hh
                · have := congrArg List.length hh
                  rw [List.length_take] at this
                  omega
              rintro (h | h)
              · exact hnot (.inl (key 2 _ rfl h))
              · exact hnot (.inr (key 4 _ rfl h))
            rw [decide_eq_false this]
            simp
          · exact hsp
        | false =>
          have htw : (b :: r).takeWhile isWhite = [] := by
            rw [List.takeWhile_cons_of_neg (by simp [hwb])]
          obtain ⟨p1, p2, p3, p4, p5, p6, p7⟩ := print_txt o e s hi.white hi.eoh
          have hdot : o.eosIncond = false → s.isDot = emptyLine s.buf := by
            intro hinc
            have := hd hinc
            rw [htw] at this
            simp only [List.append_nil, emptyLine, Bool.or_false] at this
            exact this.symm
          have hmark : (if s.isDot && !o.eosIncond then mark o else []) = (if emptyLine s.buf && !o.eosIncond then mark o else []) := by
            cases hinc : o.eosIncond with
            | true => simp
            | false => rw [hdot hinc]
          have hnext : ∀ (y : Bytes), o.eosIncond = false →
              emptyLine ([] ++ y.takeWhile isWhite) = ((printBuffer txt o e s).isDot || emptyLine (y.takeWhile isWhite)) := by
            intro y hinc
            rw [p5 (.inr hinc)]; simp
          cases hsb : isSpecial b with
          | true =>
            obtain ⟨hs0, hvb, hvr⟩ := hascii (.inr hsb)
            simp only [Bool.false_eq_true, if_false, if_true, List.drop_succ_cons, List.drop_zero, List.take_succ_cons,
              List.take_zero, act]
            rw [ih r _ hlen]
            · simp only [txtStream, hwb, hsb, Bool.false_eq_true, if_false, if_true, p1, p2, p3, p4, hs0, hmark]
              simp
            · exact {
                white := by simp [p2]
                stack := p7.trans hi.stack, eoh := p6
                sym := by simp [p4, hs0]
                valid := by simp only [p4, hs0, List.nil_append]; exact hvr
                excl := by simp [p4, hs0]
                nul := ⟨h0r, by simp [p4, hs0]⟩ }
            · intro hinc
              simp only [p2]
              exact hnext r hinc
            · simp [p4, hs0]
          | false =>
            have hexcl : s.sym ≠ [] → txtBlank o (e.tmp s.made) s.buf = [] ∧ emptyLine s.buf = false ∧ s.buf.length = 0 := by
              intro h
              rw [hi.excl h]
              simp [txtBlank, emptyLine]
            have hmid : ∀ X : Bytes, s.out ++ (if s.isDot && !o.eosIncond then mark o else []) ++ txtBlank o (e.tmp s.made) s.buf ++
                (s.sym ++ [b]) ++ X = s.out ++ s.sym ++ ((if emptyLine s.buf && !o.eosIncond then mark o else []) ++
                txtBlank o (e.tmp s.made) s.buf ++ [b] ++ X) := by
              intro X
              rw [hmark]
              by_cases hs0 : s.sym = []
              · simp [hs0]
              · obtain ⟨h1, h2, h3⟩ := hexcl hs0
                simp [h1, h2]
            simp only [Bool.false_eq_true, if_false, List.drop_succ_cons, List.drop_zero, List.take_succ_cons,
              List.take_zero, act, hcs, p4]
            have hvr : isValid ((s.sym ++ [b]) ++ r) = true := by simpa using hi.valid
            split
            · rename_i hv
              rw [ih r _ hlen]
              · simp only [txtStream, hwb, hsb, Bool.false_eq_true, if_false, p1, p2, p3, List.append_nil]
                have := hmid (txtStream o e (if s.buf.length > 8192 then s.made + 1 else s.made) [] r)
                exact this
              · exact {
                  white := by simp [p2]
                  stack := p7.trans hi.stack, eoh := p6
                  sym := by simp
                  valid := by simp only [List.nil_append]; exact isValid_cancel hvr hv
                  excl := by simp
                  nul := ⟨h0r, by simp⟩ }
              · intro hinc
                simp only [p2]
                exact hnext r hinc
              · simp
            · rename_i hv
              rw [ih r _ hlen]
              · simp only [txtStream, hwb, hsb, Bool.false_eq_true, if_false, p1, p2, p3]
                have := hmid (txtStream o e (if s.buf.length > 8192 then s.made + 1 else s.made) [] r)
                exact this
              · exact {
                  white := by simp [p2]
                  stack := p7.trans hi.stack, eoh := p6
                  sym := by intro h; exact absurd h (by simpa using hv)
                  valid := hvr
                  excl := by simp [p2]
                  nul := ⟨h0r, by
                    simp only [List.mem_append, List.mem_singleton, not_or]
                    exact ⟨hi.nul.2, fun h => h0b h.symm⟩⟩ }
              · intro hinc
                simp only [p2]
                exact hnext r hinc
              · intro x hx
                rcases List.mem_append.1 hx with hx | hx
                · exact hsp x hx
                · simp at hx; subst hx; exact hsb

/-- **C67.** The text deformatter writes exactly this stream, for every UTF-8 document and all the options: words with their
special characters escaped, single spaces as they are, all other white space in brackets or in files, and a mark of end of
sentence before white space with an empty line and at the end. -/
theorem C67_txt_stream (o : Opts) {e : Env} (he : e.Ok) (doc : Bytes) (hv : isValid doc = true) (h0 : 0 ∉ doc) :
    (deformat txt o e doc).out = txtStream o e 0 [] doc := by
  have := txt_loop o he doc.length doc {} (Nat.le_refl _)
    ⟨by simp, rfl, rfl, by simp, by simpa using hv, by simp, by simpa using h0⟩ (by simp) (by simp)
  simpa [deformat] using this

example : txtStream {} sampleEnv 0 [] (bytes "a b\n\n\nc  @\r\n\r\n") =
    bytes "a b.[][\n\n\n]c[  ]\\@.[][\r\n\r\n]" := by decide +kernel
example : txtStream { eosIncond := true } sampleEnv 0 [] (bytes "a b\nc") = bytes "a b.[][\n]c.[]" := by decide +kernel

end Verif.Format
