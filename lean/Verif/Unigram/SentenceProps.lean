import Verif.Unigram.Sentence
import Verif.Unigram.TagProps
/-!
# The sentence tagger on a stream (C30, C54), the training corpus (C55)
-/
namespace Verif.Unigram

/-! ### Specification -/

/-- What the sentence tagger should write: text, or a lexical unit with an analysis chosen for it. -/
inductive Piece where
  | text (t : Text)
  | unit (u : LexicalUnit)

/-- The pieces with the choices filled in, in order. -/
def fill (f : Flags) : List Piece → List (Option Analysis) → Text
  | [], _ => []
  | .text t :: ps, sels => t ++ fill f ps sels
  | .unit u :: ps, s :: sels => u.tagged f s ++ fill f ps sels
  | .unit _ :: ps, [] => fill f ps []

/-- The pieces of a stream: a NUL directly after a lexical unit (`after`) is lost, another one is kept. -/
def pieces (after : Bool) : List Item → List Piece
  | [] => []
  | .blank t :: is => .text t :: pieces (after && decide (t = [])) is
  | .unit u :: is => .unit u :: pieces true is
  | .nul :: is => if after then pieces false is else .text ['\x00'] :: pieces false is

/-- The text after one optional NUL. -/
def dropNul : Text → Text
  | [] => []
  | c :: t => if c = '\x00' then t else c :: t

/-- The sentences that are tagged: a sentence ends after a unit that ends a sentence, at a NUL that is not directly
after a unit, and at the end of the stream.  `cur` is the beginning of the current sentence. -/
def sentences (seg : Bool) (cur : List LexicalUnit) (after : Bool) : List Item → List (List LexicalUnit)
  | [] => [cur]
  | .blank t :: is => sentences seg cur (after && decide (t = [])) is
  | .unit u :: is =>
    if endsSentence seg u (dropNul (render is)) then (cur ++ [u]) :: sentences seg [] true is
    else sentences seg (cur ++ [u]) true is
  | .nul :: is => if after then sentences seg cur false is else cur :: sentences seg [] false is

/-! ### Proofs -/

def tokPieces (tok : Token) : List Piece :=
  match tok.lu with
  | none => [.text tok.str]
  | some u => [.text tok.str, .unit u]

def toksPieces (ts : List Token) : List Piece := ts.flatMap tokPieces

def unitsOf (ts : List Token) : List LexicalUnit := ts.filterMap (·.lu)

/-- A choice that fits a list of units. -/
inductive Fits : List LexicalUnit → List (Option Analysis) → Prop
  | nil : Fits [] []
  | cons {u : LexicalUnit} {us : List LexicalUnit} {s : Option Analysis} {ss : List (Option Analysis)} :
      (∀ a, s = some a → a ∈ u.analyses) → Fits us ss → Fits (u :: us) (s :: ss)

theorem Fits.append {us vs : List LexicalUnit} {a b : List (Option Analysis)} (h : Fits us a) (h' : Fits vs b) :
    Fits (us ++ vs) (a ++ b) := by
  induction h with
  | nil => exact h'
  | cons hs _ ih => exact .cons hs ih

theorem put_ok (f : Flags) (ts : List Token) (sels : List (Option Analysis)) (hu : ∀ u ∈ unitsOf ts, u.wf)
    (hs : Fits (unitsOf ts) sels) : put f ts sels = .ok (fill f (toksPieces ts) sels) := by
  induction ts generalizing sels with
  | nil => cases sels <;> rfl
  | cons tok ts ih =>
    obtain ⟨str, lu⟩ := tok
    cases lu with
    | none =>
      simp only [unitsOf, List.filterMap_cons] at hu hs
      simp only [put, ih sels hu hs, Outcome.bind_ok, toksPieces, List.flatMap_cons, tokPieces]
      rfl
    | some u =>
      simp only [unitsOf, List.filterMap_cons] at hu hs
      cases hs with
      | @cons _ _ s ss h1 h2 =>
        simp only [put, output_ok f u (hu u (by simp)) s h1, ih ss (fun x hx => hu x (by simp; exact Or.inr (by simpa [unitsOf] using hx))) h2,
          Outcome.bind_ok, toksPieces, List.flatMap_cons, tokPieces]
        simp [fill]

theorem fill_append (f : Flags) (ts : List Token) (ps : List Piece) (a b : List (Option Analysis))
    (h : Fits (unitsOf ts) a) : fill f (toksPieces ts ++ ps) (a ++ b) = fill f (toksPieces ts) a ++ fill f ps b := by
  induction ts generalizing a with
  | nil => cases h; simp [toksPieces, fill]
  | cons tok ts ih =>
    obtain ⟨str, lu⟩ := tok
    cases lu with
    | none =>
      simp only [unitsOf, List.filterMap_cons] at h
      have := ih a h
      simp only [toksPieces, List.flatMap_cons, tokPieces, List.cons_append, List.nil_append, fill] at this ⊢
      rw [this]; simp
    | some u =>
      simp only [unitsOf, List.filterMap_cons] at h
      cases h with
      | @cons _ _ s ss h1 h2 =>
        have := ih ss h2
        simp only [toksPieces, List.flatMap_cons, tokPieces, List.cons_append, List.nil_append, fill] at this ⊢
        rw [this]; simp

theorem put_congr (f : Flags) (full rest : List Token) (b s : Text) (l : Option LexicalUnit) (sels : List (Option Analysis)) :
    put f (full ++ ⟨b ++ s, l⟩ :: rest) sels = put f (full ++ ⟨b, none⟩ :: ⟨s, l⟩ :: rest) sels := by
  induction full generalizing sels with
  | nil =>
    cases l with
    | none =>
      simp only [List.nil_append, put]
      cases put f rest sels <;> simp
    | some u =>
      cases sels with
      | nil => simp [put]
      | cons x sels =>
        simp only [List.nil_append, put]
        cases outputLexicalUnit f u x with
        | ok o => cases put f rest sels <;> simp
        | fail => rfl
        | diverge => rfl
        | ub => rfl
  | cons tok full ih =>
    obtain ⟨str, lu⟩ := tok
    cases lu with
    | none => simp only [List.cons_append, put, ih]
    | some u =>
      cases sels with
      | nil => simp [put]
      | cons x sels => simp only [List.cons_append, put, ih]

theorem sentenceLoop_congr (f : Flags) (seg : Bool) (tagS : List LexicalUnit → List (Option Analysis)) (n : Nat) :
    ∀ (full full' : List Token) (lex : List LexicalUnit) (t : Text),
    (∀ rest sels, put f (full ++ rest) sels = put f (full' ++ rest) sels) →
    sentenceLoop f seg tagS n full lex t = sentenceLoop f seg tagS n full' lex t := by
  induction n with
  | zero => intros; rfl
  | succ n ih =>
    intro full full' lex t h
    rw [sentenceLoop, sentenceLoop]
    cases get t with
    | fail => rfl
    | diverge => rfl
    | ub => rfl
    | ok p =>
      obtain ⟨⟨s, l⟩, fl, t'⟩ := p
      cases l with
      | none => simp only [Outcome.bind_ok, h]
      | some u =>
        simp only [Outcome.bind_ok, h]
        have hc := ih (full ++ [⟨s, some u⟩]) (full' ++ [⟨s, some u⟩]) (lex ++ [u]) t' (by intro r ss; simp [h])
        simp only [hc]

theorem sentenceLoop_blank (f : Flags) (seg : Bool) (tagS : List LexicalUnit → List (Option Analysis)) (b : Text)
    (hb : BlankText b) (n : Nat) (full : List Token) (lex : List LexicalUnit) (t : Text) :
    sentenceLoop f seg tagS n full lex (b ++ t) = sentenceLoop f seg tagS n (full ++ [⟨b, none⟩]) lex t := by
  cases n with
  | zero => rfl
  | succ n =>
    rw [sentenceLoop, sentenceLoop, get_blank b hb]
    cases get t with
    | fail => rfl
    | diverge => rfl
    | ub => rfl
    | ok p =>
      obtain ⟨⟨s, l⟩, fl, t'⟩ := p
      have hp : ∀ sels, put f (full ++ [⟨b ++ s, l⟩]) sels = put f (full ++ [⟨b, none⟩] ++ [⟨s, l⟩]) sels := by
        intro sels
        rw [put_congr f full [] b s l sels]; simp
      cases l with
      | none => simp only [Outcome.map_ok, Outcome.bind_ok, prepend, hp]
      | some u =>
        simp only [Outcome.map_ok, Outcome.bind_ok, prepend, hp]
        have hc := sentenceLoop_congr f seg tagS n (full ++ [⟨b ++ s, some u⟩]) (full ++ [⟨b, none⟩] ++ [⟨s, some u⟩]) (lex ++ [u]) t' (by
          intro r ss
          have := put_congr f full r b s (some u) ss
          simpa using this)
        simp only [hc]

theorem fill_text_nil (f : Flags) (ps : List Piece) (sels : List (Option Analysis)) : fill f (.text [] :: ps) sels = fill f ps sels := rfl

theorem unitsOf_append (a b : List Token) : unitsOf (a ++ b) = unitsOf a ++ unitsOf b := by simp [unitsOf]
theorem toksPieces_append (a b : List Token) : toksPieces (a ++ b) = toksPieces a ++ toksPieces b := by simp [toksPieces]

theorem fill_blank_end (f : Flags) (ts : List Token) (ps : List Piece) (sels : List (Option Analysis)) :
    fill f (toksPieces (ts ++ [⟨[], none⟩]) ++ ps) sels = fill f (toksPieces ts ++ ps) sels := by
  induction ts generalizing sels with
  | nil => rfl
  | cons tok ts ih =>
    obtain ⟨str, lu⟩ := tok
    cases lu with
    | none =>
      simp only [List.cons_append, toksPieces, List.flatMap_cons, tokPieces, List.nil_append, fill] at ih ⊢
      rw [ih]
    | some u =>
      cases sels with
      | nil =>
        simp only [List.cons_append, toksPieces, List.flatMap_cons, tokPieces, List.nil_append, fill] at ih ⊢
        rw [ih]
      | cons s sels =>
        simp only [List.cons_append, toksPieces, List.flatMap_cons, tokPieces, List.nil_append, fill] at ih ⊢
        rw [ih]

/-- The text of the items begins with NUL: what the tagger sees after having consumed it (`after`). -/
theorem nul_after (seg : Bool) (is : List Item) (hw : ∀ i ∈ is, i.wf) (t : Text) (h : render is = '\x00' :: t) :
    ∃ is', (∀ i ∈ is', i.wf) ∧ render is' = t ∧ is'.length < is.length ∧
      (∀ cur, sentences seg cur true is = sentences seg cur false is') ∧
      ∀ f sels, fill f (pieces true is) sels = fill f (pieces false is') sels := by
  induction is with
  | nil => simp [render] at h
  | cons i is ih =>
    have e : render (i :: is) = i.text ++ render is := rfl
    have hw' : ∀ x ∈ is, x.wf := fun x hx => hw x (by simp [hx])
    rw [e] at h
    cases i with
    | unit u => simp [Item.text, LexicalUnit.text] at h
    | nul =>
      simp [Item.text] at h
      refine ⟨is, hw', h, by simp, fun cur => ?_, fun f sels => ?_⟩
      · simp [sentences]
      · simp [pieces]
    | blank b =>
      have hb : BlankText b := hw (.blank b) (by simp)
      simp only [Item.text] at h
      have hb0 : b = [] := by
        cases hb with
        | nil => rfl
        | chr h1 h2 _ _ _ => simp at h; exact absurd h.1 h2
        | esc h1 _ => simp at h
        | block _ _ => simp at h
      subst hb0
      simp only [List.nil_append] at h
      obtain ⟨is', h1, h2, h3, h4, h5⟩ := ih hw' h
      refine ⟨is', h1, h2, by simp; omega, fun cur => ?_, fun f sels => ?_⟩
      · simp [sentences, h4]
      · simp [pieces, fill, h5]

/-- When the text of the items does not begin with NUL, being after a unit makes no difference. -/
theorem no_nul_after (seg : Bool) (is : List Item) (hw : ∀ i ∈ is, i.wf) (h : (render is).head? ≠ some '\x00')
    (cur : List LexicalUnit) : sentences seg cur true is = sentences seg cur false is ∧ pieces true is = pieces false is := by
  induction is generalizing cur with
  | nil => simp [sentences, pieces]
  | cons i is ih =>
    have e : render (i :: is) = i.text ++ render is := rfl
    rw [e] at h
    cases i with
    | unit u => simp [sentences, pieces]
    | nul => simp [Item.text] at h
    | blank b =>
      by_cases hb : b = []
      · subst hb
        simp only [Item.text, List.nil_append] at h
        obtain ⟨i1, i2⟩ := ih (fun x hx => hw x (by simp [hx])) h cur
        simp [sentences, pieces, i1, i2]
      · simp [sentences, pieces, hb]

theorem sentenceLoop_ok (f : Flags) (seg : Bool) (tagS : List LexicalUnit → List (Option Analysis))
    (htag : ∀ us, Fits us (tagS us)) (k : Nat) : ∀ (is : List Item), is.length ≤ k → (∀ i ∈ is, i.wf) → ∀ (n : Nat)
    (full : List Token), (render is).length < n → (∀ u ∈ unitsOf full, u.wf) →
    sentenceLoop f seg tagS n full (unitsOf full) (render is) =
      .ok (fill f (toksPieces full ++ pieces false is) ((sentences seg (unitsOf full) false is).flatMap tagS)) := by
  induction k with
  | zero =>
    intro is hk hw n full hn hf
    have : is = [] := List.length_eq_zero_iff.mp (by omega)
    subst this
    obtain ⟨n, rfl⟩ : ∃ m, n = m + 1 := ⟨n - 1, by omega⟩
    have hp := put_ok f (full ++ [⟨[], none⟩]) (tagS (unitsOf full)) (by simpa [unitsOf] using hf) (by
      simpa [unitsOf] using htag (unitsOf full))
    have e := fill_blank_end f full [] (tagS (unitsOf full))
    simp only [List.append_nil] at e
    simp only [render, List.flatMap_nil, sentenceLoop, get_nil, Outcome.bind_ok, hp, e]
    simp [sentences, pieces]
  | succ k ih =>
    intro is hk hw n full hn hf
    cases is with
    | nil => exact ih [] (by simp) hw n full hn hf
    | cons i is =>
      have hw' : ∀ x ∈ is, x.wf := fun x hx => hw x (by simp [hx])
      have e : render (i :: is) = i.text ++ render is := rfl
      rw [e] at hn ⊢
      have hi := hw i (by simp)
      simp only [List.length_append] at hn
      simp only [List.length_cons] at hk
      cases i with
      | blank b =>
        simp only [Item.text] at hn ⊢
        have h := ih is (by omega) hw' n (full ++ [⟨b, none⟩]) (by omega) (by simpa [unitsOf] using hf)
        have hu : unitsOf (full ++ [⟨b, none⟩]) = unitsOf full := by simp [unitsOf]
        rw [hu] at h
        rw [sentenceLoop_blank f seg tagS b hi, h]
        simp [toksPieces, tokPieces, sentences, pieces]
      | nul =>
        obtain ⟨n, rfl⟩ : ∃ m, n = m + 1 := ⟨n - 1, by omega⟩
        simp only [Item.text, List.length_cons, List.length_nil] at hn ⊢
        have h := ih is (by omega) hw' n [] (by omega) (by simp [unitsOf])
        simp only [unitsOf, List.filterMap_nil, toksPieces, List.flatMap_nil, List.nil_append] at h
        have hp := put_ok f (full ++ [⟨[], none⟩]) (tagS (unitsOf full)) (by simpa [unitsOf] using hf) (by
          simpa [unitsOf] using htag (unitsOf full))
        rw [show ['\x00'] ++ render is = '\x00' :: render is from rfl, sentenceLoop, get_nul]
        simp only [Outcome.bind_ok, hp, if_true, h]
        have e1 := fill_append f full (.text ['\x00'] :: pieces false is) (tagS (unitsOf full))
          ((sentences seg [] false is).flatMap tagS) (htag _)
        have e2 := fill_blank_end f full [] (tagS (unitsOf full))
        simp only [List.append_nil] at e2
        simp only [pieces, sentences, Bool.false_eq_true, if_false, List.flatMap_cons, e1, e2]
        simp [fill]
      | unit u =>
        simp only [Item.text] at hn ⊢
        have hul := u.text_length
        obtain ⟨n, rfl⟩ : ∃ m, n = m + 1 := ⟨n - 1, by omega⟩
        -- what is left after the optional NUL
        have hrest : ∃ fl t' is', endGet ⟨[], some u⟩ (render is) = (⟨[], some u⟩, fl, t') ∧ render is' = t' ∧
            t' = dropNul (render is) ∧ is'.length ≤ k ∧ (∀ i ∈ is', i.wf) ∧ t'.length ≤ (render is).length ∧
            (∀ cur, sentences seg cur true is = sentences seg cur false is') ∧
            (∀ f sels, fill f (pieces true is) sels = fill f (pieces false is') sels) := by
          cases hr : render is with
          | nil =>
            have := fun cur => no_nul_after seg is hw' (by rw [hr]; simp) cur
            exact ⟨false, [], is, rfl, hr, rfl, by omega, hw', by simp, fun cur => (this cur).1, fun f s => by rw [(this []).2]⟩
          | cons c t =>
            by_cases hc : c = '\x00'
            · subst hc
              obtain ⟨is', g1, g2, g3, g4, g5⟩ := nul_after seg is hw' t hr
              exact ⟨true, t, is', by simp [endGet], g2, by simp [dropNul], by omega, g1, by simp, g4, g5⟩
            · have := fun cur => no_nul_after seg is hw' (by rw [hr]; simpa using hc) cur
              exact ⟨false, c :: t, is, by simp [endGet, hc], hr, by simp [dropNul, hc], by omega, hw', by simp, fun cur => (this cur).1, fun f s => by rw [(this []).2]⟩
        obtain ⟨fl, t', is', r1, r2, r3, r4, r5, r6, r7, r8⟩ := hrest
        have hfu : ∀ x ∈ unitsOf (full ++ [⟨[], some u⟩]), x.wf := by
          intro x hx
          simp only [unitsOf_append, List.mem_append] at hx
          rcases hx with hx | hx
          · exact hf x hx
          · simp [unitsOf] at hx; rw [hx]; exact hi
        have hun : unitsOf (full ++ [⟨[], some u⟩]) = unitsOf full ++ [u] := by simp [unitsOf]
        have hpc : toksPieces (full ++ [⟨[], some u⟩]) = toksPieces full ++ [.text [], .unit u] := by
          simp [toksPieces, tokPieces]
        have hcons : ∀ (ts : List Token) (ps : List Piece) sels, fill f (toksPieces ts ++ .text [] :: ps) sels =
            fill f (toksPieces ts ++ ps) sels := by
          intro ts ps sels
          have := fill_blank_end f ts ps sels
          rw [toksPieces_append] at this
          simpa [toksPieces, tokPieces] using this
        rw [sentenceLoop, get_unit u hi, r1]
        simp only [Outcome.bind_ok]
        by_cases hend : endsSentence seg u t' = true
        · rw [if_pos hend]
          have hp := put_ok f (full ++ [⟨[], some u⟩]) (tagS (unitsOf full ++ [u])) hfu (by rw [hun]; exact htag _)
          have h := ih is' r4 r5 n [] (by rw [r2]; omega) (by simp [unitsOf])
          simp only [unitsOf, List.filterMap_nil, toksPieces, List.flatMap_nil, List.nil_append, r2] at h
          have e1 := fill_append f (full ++ [⟨[], some u⟩]) (pieces true is) (tagS (unitsOf full ++ [u]))
            ((sentences seg [] true is).flatMap tagS) (by rw [hun]; exact htag _)
          rw [hp]
          simp only [Outcome.bind_ok, h]
          simp only [sentences, ← r3, hend, if_true, pieces, List.flatMap_cons]
          rw [hpc] at e1
          have e2 := hcons full (.unit u :: pieces true is) (tagS (unitsOf full ++ [u]) ++ (sentences seg [] true is).flatMap tagS)
          have e3 : fill f (toksPieces full ++ [.text [], .unit u] ++ pieces true is) (tagS (unitsOf full ++ [u]) ++ (sentences seg [] true is).flatMap tagS) =
              fill f (toksPieces full ++ .text [] :: .unit u :: pieces true is) (tagS (unitsOf full ++ [u]) ++ (sentences seg [] true is).flatMap tagS) := by
            simp
          rw [← e2, ← e3, e1, hpc, r8, r7]
        · rw [if_neg hend]
          have h := ih is' r4 r5 n (full ++ [⟨[], some u⟩]) (by rw [r2]; omega) hfu
          rw [r2, hun, hpc] at h
          rw [h]
          simp only [sentences, ← r3, hend, Bool.false_eq_true, if_false, pieces]
          have e2 := hcons full (.unit u :: pieces false is') ((sentences seg (unitsOf full ++ [u]) false is').flatMap tagS)
          have e4 : ∀ sels, fill f (toksPieces full ++ .unit u :: pieces false is') sels =
              fill f (toksPieces full ++ .unit u :: pieces true is) sels := by
            intro sels
            have : ∀ (ps ps' : List Piece), (∀ s, fill f ps s = fill f ps' s) → ∀ (qs : List Piece) s, fill f (qs ++ ps) s = fill f (qs ++ ps') s := by
              intro ps ps' hps qs
              induction qs with
              | nil => exact hps
              | cons q qs ihq =>
                intro s
                cases q with
                | text t => simp [fill, ihq]
                | unit v => cases s <;> simp [fill, ihq]
            have := this (pieces false is') (pieces true is) (fun s => (r8 f s).symm) (toksPieces full ++ [.unit u]) sels
            simpa using this
          rw [r7, ← e4, ← e2]
          simp

/-- **C54** the sentence tagger on every well-formed stream, for every `tagSentence` that gives one of a unit's
analyses (or none) for each unit of a sentence: it ends normally; all the text between the units is copied; the units
are written in order, each with the analysis that `tagSentence` gave for it when called on the sentence it is in. -/
theorem C54_sentence_stream (f : Flags) (seg : Bool) (tagS : List LexicalUnit → List (Option Analysis))
    (htag : ∀ us, Fits us (tagS us)) (is : List Item) (hw : ∀ i ∈ is, i.wf) :
    sentenceTag f seg tagS (render is) =
      .ok (fill f (pieces false is) ((sentences seg [] false is).flatMap tagS)) := by
  have := sentenceLoop_ok f seg tagS htag is.length is (Nat.le_refl _) hw ((render is).length + 1) [] (by omega) (by simp [unitsOf])
  simpa [sentenceTag, unitsOf, toksPieces] using this

/-- **C54** where sentences end: after a unit whose only analysis is one morpheme with the only tag `sent`; when
sentences are segmented by empty lines, only if two newlines follow. -/
theorem C54_boundary (seg : Bool) (u : LexicalUnit) (rest : Text) :
    endsSentence seg u rest = true ↔
      (∃ l, u.analyses = [⟨[⟨l, [t!"sent"]⟩]⟩]) ∧ (seg = true → ∃ r, rest = '\n' :: '\n' :: r) := by
  have h1 : isSentenceEnd u = true ↔ ∃ l, u.analyses = [⟨[⟨l, [t!"sent"]⟩]⟩] := by
    unfold isSentenceEnd
    split
    · rename_i a h
      split
      · rename_i m h'
        rcases a with ⟨ms⟩
        simp only at h'
        subst h'
        rcases m with ⟨l, ts⟩
        simp [h]
      · rename_i hno
        rcases a with ⟨ms⟩
        simp only [Bool.false_eq_true, false_iff, not_exists, h]
        intro l hl
        simp only [List.cons.injEq, Analysis.mk.injEq, and_true] at hl
        exact hno _ hl
    · rename_i hno
      simp only [Bool.false_eq_true, false_iff, not_exists]
      intro l hl
      exact hno _ hl
  have h2 : peekIsBlank rest = true ↔ ∃ r, rest = '\n' :: '\n' :: r := by
    unfold peekIsBlank
    split
    · rename_i a b r
      simp only [decide_eq_true_eq, List.cons.injEq]
      constructor
      · rintro ⟨h1, h2⟩; exact ⟨r, h1, h2, rfl⟩
      · rintro ⟨_, h1, h2, _⟩; exact ⟨h1, h2⟩
    · rename_i hno
      simp only [Bool.false_eq_true, false_iff, not_exists]
      intro r hr
      exact hno _ _ _ hr
  unfold endsSentence
  cases seg with
  | true => simp [h1, h2]
  | false => simp [h1]

/-- **C30 does not hold of the sentence tagger**: a NUL directly after a lexical unit is lost, and does not end the
sentence.  Here both requests are answered only at the end of the input, without any NUL. -/
theorem C30_sentence_violation (tagS : List LexicalUnit → List (Option Analysis)) (htag : ∀ us, Fits us (tagS us))
    (u v : LexicalUnit) (hu : u.wf) (hv : v.wf) (hend : isSentenceEnd u = false) (hend' : isSentenceEnd v = false) :
    sentenceTag {} false tagS (render [.unit u, .nul, .unit v, .nul]) =
      .ok (fill {} [.unit u, .unit v] (tagS [u, v])) := by
  rw [C54_sentence_stream _ _ _ htag _ (by
    intro i hi
    simp only [List.mem_cons, List.not_mem_nil, or_false] at hi
    rcases hi with rfl | rfl | rfl | rfl
    · exact hu
    · trivial
    · exact hv
    · trivial)]
  simp [pieces, sentences, endsSentence, hend, hend']

/-- The units of the pieces. -/
def pieceUnits : List Piece → List LexicalUnit
  | [] => []
  | .text _ :: ps => pieceUnits ps
  | .unit u :: ps => u :: pieceUnits ps

theorem fill_split (f : Flags) (ps qs : List Piece) (a b : List (Option Analysis)) (h : Fits (pieceUnits ps) a) :
    fill f (ps ++ qs) (a ++ b) = fill f ps a ++ fill f qs b := by
  induction ps generalizing a with
  | nil => cases h; simp [fill]
  | cons p ps ih =>
    cases p with
    | text t => simp [fill, ih a h]
    | unit u =>
      cases h with
      | cons h1 h2 => simp [fill, ih _ h2]

theorem pieces_append (after : Bool) (is js : List Item) (b : Text) (hne : b ≠ []) :
    pieces after (is ++ .blank b :: .nul :: js) = pieces after (is ++ [.blank b]) ++ .text ['\x00'] :: pieces false js := by
  induction is generalizing after with
  | nil => simp [pieces, hne]
  | cons i is ih =>
    cases i with
    | blank t => simp [pieces, ih]
    | unit u => simp [pieces, ih]
    | nul => cases after <;> simp [pieces, ih]

theorem peek_append (x y : Text) (h : x ≠ []) : peekIsBlank (dropNul (x ++ '\x00' :: y)) = peekIsBlank (dropNul x) := by
  cases x with
  | nil => exact absurd rfl h
  | cons c x =>
    by_cases hc : c = '\x00'
    · cases x with
      | nil => cases y <;> simp [dropNul, hc, peekIsBlank]
      | cons d x =>
        cases x with
        | nil => simp [dropNul, hc, peekIsBlank]
        | cons e x => simp [dropNul, hc, peekIsBlank]
    · cases x with
      | nil => simp [dropNul, hc, peekIsBlank]
      | cons d x => simp [dropNul, hc, peekIsBlank]

theorem sentences_append (seg : Bool) (cur : List LexicalUnit) (after : Bool) (is js : List Item) (b : Text) (hne : b ≠ []) :
    sentences seg cur after (is ++ .blank b :: .nul :: js) =
      sentences seg cur after (is ++ [.blank b]) ++ sentences seg [] false js := by
  induction is generalizing cur after with
  | nil => simp [sentences, hne]
  | cons i is ih =>
    cases i with
    | blank t => simp [sentences, ih]
    | unit u =>
      have e : endsSentence seg u (dropNul (render (is ++ .blank b :: .nul :: js))) =
          endsSentence seg u (dropNul (render (is ++ [.blank b]))) := by
        have e1 : render (is ++ .blank b :: .nul :: js) = render (is ++ [.blank b]) ++ '\x00' :: render js := by
          simp [render, Item.text]
        rw [e1]
        unfold endsSentence
        rw [peek_append _ _ (by simp [render, Item.text, hne])]
      simp only [List.cons_append, sentences, e, ih]
      split <;> simp
    | nul => cases after <;> simp [sentences, ih]

theorem sentences_flatten (seg : Bool) (cur : List LexicalUnit) (after : Bool) (is : List Item) :
    (sentences seg cur after is).flatten = cur ++ pieceUnits (pieces after is) := by
  induction is generalizing cur after with
  | nil => simp [sentences, pieces, pieceUnits]
  | cons i is ih =>
    cases i with
    | blank t => simp [sentences, pieces, pieceUnits, ih]
    | unit u =>
      simp only [sentences, pieces, pieceUnits]
      split
      · simp [ih]
      · simp [ih]
    | nul => cases after <;> simp [sentences, pieces, pieceUnits, ih]

theorem fits_flatten (tagS : List LexicalUnit → List (Option Analysis)) (htag : ∀ us, Fits us (tagS us))
    (ss : List (List LexicalUnit)) : Fits ss.flatten (ss.flatMap tagS) := by
  induction ss with
  | nil => exact .nil
  | cons s ss ih => simpa using (htag s).append ih

/-- **C54** no unit is lost, added or moved: the units of the sentences, in order, are the units of the stream. -/
theorem C54_units (seg : Bool) (is : List Item) :
    (sentences seg [] false is).flatten = is.filterMap (fun i => match i with | .unit u => some u | _ => none) := by
  rw [sentences_flatten, List.nil_append]
  have : ∀ after, pieceUnits (pieces after is) = is.filterMap (fun i => match i with | .unit u => some u | _ => none) := by
    induction is with
    | nil => intro; rfl
    | cons i is ih =>
      intro after
      cases i with
      | blank t => simp [pieces, pieceUnits, ih]
      | unit u => simp [pieces, pieceUnits, ih]
      | nul => cases after <;> simp [pieces, pieceUnits, ih]
  exact this false

/-- **C30** a NUL that is not directly after a lexical unit is copied, and every unit before it has been written. -/
theorem C30_sentence_partial (f : Flags) (seg : Bool) (tagS : List LexicalUnit → List (Option Analysis))
    (htag : ∀ us, Fits us (tagS us)) (is js : List Item) (hw : ∀ i ∈ is, i.wf) (hw' : ∀ i ∈ js, i.wf) (b : Text)
    (hb : BlankText b) (hne : b ≠ []) :
    ∃ o o', sentenceTag f seg tagS (render (is ++ [.blank b])) = .ok o ∧
      sentenceTag f seg tagS (render js) = .ok o' ∧
      sentenceTag f seg tagS (render (is ++ .blank b :: .nul :: js)) = .ok (o ++ '\x00' :: o') := by
  have hw1 : ∀ i ∈ is ++ [Item.blank b], i.wf := by
    intro i hi
    simp only [List.mem_append, List.mem_singleton] at hi
    rcases hi with hi | rfl
    · exact hw i hi
    · exact hb
  have hw2 : ∀ i ∈ is ++ Item.blank b :: Item.nul :: js, i.wf := by
    intro i hi
    simp only [List.mem_append, List.mem_cons] at hi
    rcases hi with hi | rfl | rfl | hi
    · exact hw i hi
    · exact hb
    · trivial
    · exact hw' i hi
  refine ⟨_, _, C54_sentence_stream f seg tagS htag _ hw1, C54_sentence_stream f seg tagS htag _ hw', ?_⟩
  rw [C54_sentence_stream f seg tagS htag _ hw2, pieces_append false is js b hne, sentences_append seg [] false is js b hne,
    List.flatMap_append, fill_split]
  · rfl
  · have := fits_flatten tagS htag (sentences seg [] false (is ++ [.blank b]))
    rw [sentences_flatten, List.nil_append] at this
    exact this

/-! ### The training corpus -/

/-- The corpus that should result from aligned streams: the pairs (first analysis of the tagged token, untagged unit),
divided after each tagged token that ends a sentence. -/
def groups (cur : TrainingSentence) : List (CToken × CToken) → List TrainingSentence
  | [] => if cur.2 = [] then [] else [cur]
  | (t, u) :: r =>
    if t.2 then (cur.1 ++ [t.1.analyses.head?], cur.2 ++ [u.1]) :: groups ([], []) r
    else groups (cur.1 ++ [t.1.analyses.head?], cur.2 ++ [u.1]) r

theorem modifyLast_append (g : TrainingSentence → TrainingSentence) (ss : List TrainingSentence) (s : TrainingSentence) :
    modifyLast g (ss ++ [s]) = ss ++ [g s] := by
  induction ss with
  | nil => rfl
  | cons a ss ih =>
    cases ss with
    | nil => rfl
    | cons b ss => simp only [List.cons_append, modifyLast] at ih ⊢; rw [ih]

theorem corpusLoop_match (skip : Bool) (ss : List TrainingSentence) (fresh : Bool) (t u : CToken) (ts us : List CToken)
    (h : u.1.surface = t.1.surface) : corpusLoop skip ss fresh (t :: ts) (u :: us) =
      if (if fresh then ss ++ [([], [])] else ss) = [] then .ub
      else corpusLoop skip (modifyLast (fun s => (s.1 ++ [t.1.analyses.head?], s.2 ++ [u.1]))
        (if fresh then ss ++ [([], [])] else ss)) t.2 ts us := by
  rw [corpusLoop.eq_def]
  simp [h]

theorem corpus_aligned (skip : Bool) (ts us : List CToken) (h : ts.map (·.1.surface) = us.map (·.1.surface)) :
    (∀ ss, corpusLoop skip ss true ts us = .ok (ss ++ groups ([], []) (ts.zip us))) ∧
    (∀ ss cur, cur.2 ≠ [] → corpusLoop skip (ss ++ [cur]) false ts us = .ok (ss ++ groups cur (ts.zip us))) := by
  induction ts generalizing us with
  | nil =>
    cases us with
    | cons u us => simp at h
    | nil => exact ⟨fun ss => by simp [corpusLoop, groups], fun ss cur hc => by simp [corpusLoop, groups, hc]⟩
  | cons t ts ih =>
    cases us with
    | nil => simp at h
    | cons u us =>
      simp only [List.map_cons, List.cons.injEq] at h
      obtain ⟨i1, i2⟩ := ih us h.2
      constructor
      · intro ss
        rw [corpusLoop_match _ _ _ _ _ _ _ h.1.symm]
        simp only [if_true, List.append_eq_nil_iff, List.cons_ne_self, and_false, if_false, modifyLast_append, List.zip_cons_cons, groups,
          List.nil_append]
        cases ht : t.2 with
        | true => simp [i1]
        | false => simp [i2]
      · intro ss cur hc
        rw [corpusLoop_match _ _ _ _ _ _ _ h.1.symm]
        simp only [Bool.false_eq_true, List.append_eq_nil_iff, List.cons_ne_self, and_false, if_false, modifyLast_append, List.zip_cons_cons, groups]
        cases ht : t.2 with
        | true => simp [i1]
        | false => simp [i2]

/-- **C55** two streams with the same surface forms give the corpus they should, with or without `--skip-on-error`. -/
theorem C55_aligned (skip : Bool) (ts us : List CToken) (h : ts.map (·.1.surface) = us.map (·.1.surface)) :
    corpusLoop skip [] true ts us = .ok (groups ([], []) (ts.zip us)) := by
  simpa using (corpus_aligned skip ts us h).1 []

/-- **C55** without `--skip-on-error` two streams that differ are refused. -/
theorem C55_strict (ts us : List CToken) (h : ts.map (·.1.surface) ≠ us.map (·.1.surface)) :
    corpusLoop false [] true ts us = .fail := by
  have : ∀ (ts us : List CToken) (ss : List TrainingSentence) (fresh : Bool), (ss = [] → fresh = true) →
      ts.map (·.1.surface) ≠ us.map (·.1.surface) → corpusLoop false ss fresh ts us = .fail := by
    intro ts
    induction ts with
    | nil =>
      intro us ss fresh _ h
      cases us with
      | nil => simp at h
      | cons u us => rw [corpusLoop.eq_def]
    | cons t ts ih =>
      intro us ss fresh hf h
      cases us with
      | nil => rw [corpusLoop.eq_def]
      | cons u us =>
        by_cases he : u.1.surface = t.1.surface
        · rw [corpusLoop_match _ _ _ _ _ _ _ he]
          have hne : (if fresh then ss ++ [([], [])] else ss) ≠ ([] : List TrainingSentence) := by
            cases fresh with
            | true => simp
            | false => intro hs; exact absurd (hf hs) (by simp)
          rw [if_neg hne]
          refine ih us _ _ ?_ ?_
          · intro hm
            exfalso
            obtain ⟨ss', s, hs⟩ : ∃ ss' s, (if fresh then ss ++ [([], [])] else ss) = ss' ++ [s] :=
              ⟨_, _, (List.dropLast_concat_getLast hne).symm⟩
            rw [hs, modifyLast_append] at hm
            simp at hm
          · intro hm
            apply h
            simp [he, hm]
        · rw [corpusLoop.eq_def]
          simp [he]
  exact this ts us [] true (fun _ => rfl) h

theorem contToEnd_suffix (tok : CToken) (rest r : List CToken) (h : contToEnd tok rest = some r) : r <:+ rest := by
  induction rest generalizing tok with
  | nil =>
    rw [contToEnd] at h
    split at h
    · simp at h; simp [h]
    · simp at h
  | cons a rest ih =>
    rw [contToEnd] at h
    split at h
    · simp at h; simp [h]
    · exact (ih a h).trans (List.suffix_cons a rest)

/-- A training sentence all of whose pairs come from tokens of the two streams with the same surface form. -/
def AlignedIn (TS US : List CToken) (s : TrainingSentence) : Prop :=
  s.1.length = s.2.length ∧ ∀ p ∈ s.1.zip s.2, ∃ t ∈ TS, ∃ u ∈ US, t.1.surface = u.1.surface ∧ p = (t.1.analyses.head?, u.1)

theorem modifyLast_all (P : TrainingSentence → Prop) (g : TrainingSentence → TrainingSentence) (ss : List TrainingSentence)
    (h : ∀ s ∈ ss, P s) (hg : ∀ s, P s → P (g s)) : ∀ s ∈ modifyLast g ss, P s := by
  induction ss with
  | nil => simp [modifyLast]
  | cons a ss ih =>
    cases ss with
    | nil =>
      intro s hs
      simp [modifyLast] at hs
      rw [hs]; exact hg a (h a (by simp))
    | cons b ss =>
      intro s hs
      simp only [modifyLast, List.mem_cons] at hs
      rcases hs with rfl | hs
      · exact h s (by simp)
      · exact ih (fun x hx => h x (by simp [hx])) s hs

/-- **C55** with `--skip-on-error` too, whatever the streams: every pair in the corpus comes from two tokens with the same
surface form, and each sentence has as many analyses as units. -/
theorem C55_skip_aligned (skip : Bool) (TS US : List CToken) (res : List TrainingSentence)
    (h : corpusLoop skip [] true TS US = .ok res) : ∀ s ∈ res, AlignedIn TS US s := by
  have : ∀ (k : Nat) (ts us : List CToken) (ss : List TrainingSentence) (fresh : Bool) (res : List TrainingSentence), ts.length ≤ k →
      ts <:+ TS → us <:+ US → (∀ s ∈ ss, AlignedIn TS US s) → corpusLoop skip ss fresh ts us = .ok res →
      ∀ s ∈ res, AlignedIn TS US s := by
    intro k
    induction k with
    | zero =>
      intro ts us ss fresh res hk _ _ hs h
      have : ts = [] := List.length_eq_zero_iff.mp (by omega)
      subst this
      cases us with
      | nil => rw [corpusLoop.eq_def] at h; simp at h; rw [← h]; exact hs
      | cons u us => rw [corpusLoop.eq_def] at h; simp at h
    | succ k ih =>
      intro ts us ss fresh res hk h1 h2 hs h
      cases ts with
      | nil => exact ih [] us ss fresh res (by simp) h1 h2 hs h
      | cons t ts =>
        cases us with
        | nil => rw [corpusLoop.eq_def] at h; simp at h
        | cons u us =>
          simp only [List.length_cons] at hk
          have h1' : ts <:+ TS := (List.suffix_cons t ts).trans h1
          have h2' : us <:+ US := (List.suffix_cons u us).trans h2
          have hempty : AlignedIn TS US ([], []) := ⟨rfl, by simp⟩
          by_cases he : u.1.surface = t.1.surface
          · rw [corpusLoop_match _ _ _ _ _ _ _ he] at h
            by_cases hnil : (if fresh then ss ++ [([], [])] else ss) = []
            · rw [if_pos hnil] at h; simp at h
            · rw [if_neg hnil] at h
              refine ih ts us _ _ res (by omega) h1' h2' ?_ h
              apply modifyLast_all
              · intro s hx
                cases fresh with
                | false => exact hs s (by simpa using hx)
                | true =>
                  simp at hx
                  rcases hx with hx | rfl
                  · exact hs s hx
                  · exact hempty
              · intro s hx
                refine ⟨by simp [hx.1], ?_⟩
                intro p hp
                simp only at hp
                rw [List.zip_append hx.1] at hp
                simp only [List.mem_append, List.zip_cons_cons, List.zip_nil_right, List.mem_singleton] at hp
                rcases hp with hp | hp
                · exact hx.2 p hp
                · exact ⟨t, h1.subset (by simp), u, h2.subset (by simp), he.symm, hp⟩
          · rw [corpusLoop.eq_def] at h
            simp only [ne_eq, he, not_false_eq_true, if_true] at h
            cases skip with
            | false => simp at h
            | true =>
              simp only [if_true] at h
              split at h
              · simp at h
              · split at h
                · rename_i ts' us' e1 e2
                  refine ih ts' us' _ _ res ?_ ((contToEnd_suffix _ _ _ e1).trans h1') ((contToEnd_suffix _ _ _ e2).trans h2') ?_ h
                  · have := contToEnd_length _ _ _ e1
                    omega
                  · exact modifyLast_all _ _ _ hs (fun _ _ => hempty)
                · simp at h
                  rw [← h]
                  exact modifyLast_all _ _ _ hs (fun _ _ => hempty)
                · simp at h
  exact this TS.length TS US [] true res (Nat.le_refl _) (List.suffix_refl _) (List.suffix_refl _) (by simp) h

theorem corpusLoop_skip (ss : List TrainingSentence) (fresh : Bool) (t u : CToken) (ts us ts' us' : List CToken)
    (h : u.1.surface ≠ t.1.surface) (hss : ss ≠ []) (h1 : contToEnd t ts = some ts') (h2 : contToEnd u us = some us') :
    corpusLoop true ss fresh (t :: ts) (u :: us) = corpusLoop true (modifyLast (fun _ => ([], [])) ss) fresh ts' us' := by
  rw [corpusLoop.eq_def]
  simp only [ne_eq, h, not_false_eq_true, if_true, hss, if_false]
  split
  · rename_i a b e1 e2
    rw [h1] at e1
    rw [h2] at e2
    simp only [Option.some.injEq] at e1 e2
    rw [e1, e2]
  · rename_i e1 _; rw [h1] at e1; simp at e1
  · rename_i e1 e2 _; exact absurd h2 (e2 _ _ h1)

def ctok (sf : Text) (e : Bool) : CToken := (⟨sf, [⟨[⟨sf, [t!"n"]⟩]⟩]⟩, e)

/-- **C55 fails with `--skip-on-error`** in two ways.  When the streams differ at the first token of a sentence, it is the
sentence before, complete and aligned, that is thrown away (the corpus keeps an empty sentence for it); and when they
differ at the very first token, the code uses an uninitialised pointer. -/
theorem C55_skip_violation :
    corpusLoop true [] true [ctok t!"a" true, ctok t!"x" false, ctok t!"." true, ctok t!"b" true]
      [ctok t!"a" true, ctok t!"y" false, ctok t!"." true, ctok t!"b" true] =
      .ok [([], []), ([some ⟨[⟨t!"b", [t!"n"]⟩]⟩], [(ctok t!"b" true).1])] ∧
    corpusLoop true [] true [ctok t!"x" true] [ctok t!"y" true] = .ub := by
  constructor
  · rw [corpusLoop_match _ _ _ _ _ _ _ rfl]
    simp only [if_true, List.nil_append, List.cons_ne_self, if_false, modifyLast]
    rw [corpusLoop_skip _ _ _ _ _ _ [ctok t!"b" true] [ctok t!"b" true] (by decide) (by simp) (by simp [contToEnd, ctok])
      (by simp [contToEnd, ctok])]
    rw [corpusLoop_match _ _ _ _ _ _ _ rfl]
    simp [modifyLast, corpusLoop, ctok]
  · rw [corpusLoop.eq_def]
    simp [ctok]

end Verif.Unigram
