import Verif.Postchunk.Spec
import Verif.Chunk.Word
import Verif.Token.Props
import Verif.Bil.Pipeline
import Verif.Transfer.Proofs
/-!
# C76: the chunks as the tokenizer and the rules see them
-/
namespace Verif.Postchunk
open Verif.Transfer
open Verif.Stream (Atom renderAtoms plainAtoms renderAtoms_cons renderAtoms_nil)
open Verif.Token (Part renderParts IcWord IcStream)
open Verif.Chunk (Uni Piece Blank renderBlanks Chunk Case Sym tagText kthTag withCase upperFirst)
open Verif.Bil (renderAtoms_append renderAtoms_lits wf_mono)

variable {u : Uni} {lower : Char → Char}

/-! ## Well-formed in the sense of C41 and C42 -/

theorem PlainPiece.wf {p : Piece} (h : PlainPiece u p) : p.wf u := by
  cases p with
  | lit c =>
    have := h.1
    simp only [List.mem_cons, List.not_mem_nil, or_false, not_or] at this
    simp [Piece.wf, this]
  | esc c => trivial
  | tag n => exact ⟨fun hx => by have := h.1 _ hx; simp at this, h.2⟩
  | ref n => exact ⟨fun hx => by have := h.1 _ hx; simp at this, h.2⟩

theorem PlainBlank.wf {b : Blank} (h : PlainBlank b) : b.wf := by
  cases b with
  | ch c =>
    simp only [PlainBlank, List.mem_cons, List.not_mem_nil, or_false, not_or] at h
    simp [Blank.wf, h]
  | esc c => trivial
  | sup b => exact fun a ha => wf_mono (by simp) (h a ha)

theorem Fine.wf {c : Chunk} (h : Fine u lower c) : c.wf u where
  lem a ha := wf_mono (by simp) (h.lem a ha)
  tags t ht x hx := by
    have := h.tags t ht x hx
    simp only [List.mem_cons, List.not_mem_nil, or_false, not_or] at this ⊢
    exact ⟨this.1, this.2.1, this.2.2.1⟩
  lead b hb := by rw [h.lead] at hb; cases hb
  words w hw := ⟨⟨fun b hb a ha => wf_mono (by simp) ((h.wblanks w hw b hb).1 a ha), fun p hp => ((h.words w hw).1 p hp).wf⟩,
    fun b hb => ((h.words w hw).2 b hb).wf⟩

/-! ## The tokenizer -/

def headAtoms (c : Chunk) : List Atom := c.lem ++ c.tags.flatMap fun t => .lit '<' :: t.map .lit ++ [.lit '>']

theorem render_headAtoms (c : Chunk) : renderAtoms (headAtoms c) = c.head := by
  unfold headAtoms Chunk.head
  rw [renderAtoms_append]
  congr 1
  induction c.tags with
  | nil => rfl
  | cons t ts ih =>
    rw [List.flatMap_cons, List.flatMap_cons, renderAtoms_append, ih]
    congr 1
    rw [List.cons_append, renderAtoms_cons, renderAtoms_append, renderAtoms_lits]
    rfl

theorem Fine.headAtoms {c : Chunk} (h : Fine u lower c) : ∀ a ∈ headAtoms c, a.wf ['[', ']', '^', '{', '$'] := by
  intro a ha
  rcases List.mem_append.1 ha with ha | ha
  · exact wf_mono (by simp) (h.lem a ha)
  · obtain ⟨t, ht, ha⟩ := List.mem_flatMap.1 ha
    simp only [List.cons_append, List.mem_cons, List.mem_append, List.mem_map, List.not_mem_nil, or_false] at ha
    rcases ha with rfl | ⟨x, hx, rfl⟩ | rfl
    · decide
    · have := h.tags t ht x hx
      simp only [List.mem_cons, List.not_mem_nil, or_false, not_or] at this
      refine ⟨this.2.2.1, this.2.2.2.2.2.2.2, ?_⟩
      simp [this]
    · decide

def blankAtoms : Blank → List Atom
  | .ch c => [.lit c]
  | .esc c => [.esc c]
  | .sup b => .lit '[' :: b ++ [.lit ']']

theorem render_blankAtoms (b : Blank) : renderAtoms (blankAtoms b) = b.render := by
  cases b with
  | ch c => rfl
  | esc c => rfl
  | sup b => simp [blankAtoms, Blank.render, renderAtoms_append, Atom.render]

theorem PlainBlank.atoms {b : Blank} (h : PlainBlank b) : ∀ a ∈ blankAtoms b, a.wf ['}'] := by
  intro a ha
  cases b with
  | ch c =>
    simp only [PlainBlank, List.mem_cons, List.not_mem_nil, or_false, not_or] at h
    rw [List.mem_singleton.1 ha]
    exact ⟨h.1, h.2.2.2.2, by simp [h]⟩
  | esc c => rw [List.mem_singleton.1 ha]; exact h
  | sup b =>
    simp only [blankAtoms, List.cons_append, List.mem_cons, List.mem_append, List.not_mem_nil, or_false] at ha
    rcases ha with rfl | ha | rfl
    · decide
    · exact wf_mono (by simp) (h a ha)
    · decide

def wordAtoms (w : Chunk.Word) : List Atom :=
  (match w.wb with
    | none => []
    | some b => .lit '[' :: .lit '[' :: b ++ [.lit ']', .lit ']']) ++ .lit '^' :: Bil.textAtoms w.pieces ++ [.lit '$']

theorem render_wordAtoms (w : Chunk.Word) : renderAtoms (wordAtoms w) = w.render := by
  unfold wordAtoms Chunk.Word.render Chunk.Word.wbText
  rw [renderAtoms_append, renderAtoms_append, renderAtoms_cons, Bil.render_textAtoms]
  cases w.wb <;> simp [Atom.render, renderAtoms_append, Bil.text]

theorem PlainPiece.atoms {p : Piece} (h : PlainPiece u p) : ∀ a ∈ Bil.pieceAtoms p, a.wf ['}'] := by
  intro a ha
  have tagCase : ∀ n : Text, (∀ c ∈ n, c ∉ ['>', '\\', '{', '}', ']', '\x00']) → a ∈ Atom.lit '<' :: n.map Atom.lit ++ [Atom.lit '>'] → a.wf ['}'] := by
    intro n hn ha
    simp only [List.cons_append, List.mem_cons, List.mem_append, List.mem_map, List.not_mem_nil, or_false] at ha
    rcases ha with rfl | ⟨c, hc, rfl⟩ | rfl
    · decide
    · have := hn c hc
      simp only [List.mem_cons, List.not_mem_nil, or_false, not_or] at this
      exact ⟨this.2.1, this.2.2.2.2.2, by simp [this]⟩
    · decide
  cases p with
  | lit c =>
    have := h.1
    simp only [List.mem_cons, List.not_mem_nil, or_false, not_or] at this
    rw [List.mem_singleton.1 ha]
    exact ⟨this.1, this.2.2.2.2.2.2, by simp [this]⟩
  | esc c => rw [List.mem_singleton.1 ha]; exact h
  | tag n => exact tagCase n h.1 ha
  | ref n => exact tagCase n h.1 ha

def contentAtoms (c : Chunk) : List Atom := c.words.flatMap fun w => wordAtoms w.1 ++ w.2.flatMap blankAtoms

theorem render_flatMap {α : Type} (f : α → List Atom) (g : α → Text) (h : ∀ x, renderAtoms (f x) = g x) (xs : List α) :
    renderAtoms (xs.flatMap f) = xs.flatMap g := by
  induction xs with
  | nil => rfl
  | cons x xs ih => rw [List.flatMap_cons, List.flatMap_cons, renderAtoms_append, ih, h]

theorem render_contentAtoms (c : Chunk) : renderAtoms (contentAtoms c) = c.words.flatMap fun w => w.1.render ++ renderBlanks w.2 := by
  unfold contentAtoms
  refine render_flatMap _ _ (fun w => ?_) _
  rw [renderAtoms_append, render_wordAtoms]
  congr 1
  exact render_flatMap _ _ render_blankAtoms _

theorem Fine.contentAtoms {c : Chunk} (h : Fine u lower c) : ∀ a ∈ contentAtoms c, a.wf ['}'] := by
  intro a ha
  obtain ⟨w, hw, ha⟩ := List.mem_flatMap.1 ha
  rcases List.mem_append.1 ha with ha | ha
  · unfold wordAtoms at ha
    rcases List.mem_append.1 ha with ha | ha
    · rcases List.mem_append.1 ha with ha | ha
      · cases hb : w.1.wb with
        | none => rw [hb] at ha; cases ha
        | some b =>
          rw [hb] at ha
          simp only [List.cons_append, List.mem_cons, List.mem_append, List.not_mem_nil, or_false] at ha
          rcases ha with rfl | rfl | ha | rfl | rfl
          · decide
          · decide
          · exact wf_mono (by simp) ((h.wblanks w hw b hb).1 a ha)
          · decide
          · decide
      · rcases List.mem_cons.1 ha with rfl | ha
        · decide
        · obtain ⟨p, hp, ha⟩ := List.mem_flatMap.1 ha
          exact ((h.words w hw).1 p hp).atoms a ha
    · rw [List.mem_singleton.1 ha]; decide
  · obtain ⟨b, hb, ha⟩ := List.mem_flatMap.1 ha
    exact ((h.words w hw).2 b hb).atoms a ha

/-- The chunk as the tokenizer sees it. -/
def icWord (c : Chunk) : IcWord := ⟨headAtoms c, some (contentAtoms c)⟩

theorem Fine.render_eq {c : Chunk} (h : Fine u lower c) : c.render = c.head ++ '{' :: ((c.words.flatMap fun w => w.1.render ++ renderBlanks w.2) ++ ['}']) := by
  simp [Chunk.render, h.lead, renderBlanks]

theorem Fine.icWord_text {c : Chunk} (h : Fine u lower c) : (icWord c).text = c.render := by
  unfold IcWord.text icWord
  rw [render_headAtoms, h.render_eq]
  dsimp only
  rw [render_contentAtoms]
  simp

theorem Fine.icWord_wf {c : Chunk} (h : Fine u lower c) : (icWord c).wf := by
  refine ⟨fun a ha => wf_mono (by simp) (h.headAtoms a ha), fun b hb => ?_⟩
  cases hb
  refine ⟨fun a ha => wf_mono (by simp) (h.contentAtoms a ha), fun i hi => ?_⟩
  exact (h.contentAtoms _ (List.mem_of_getElem? hi.1)).2.2 (by simp)

/-- The stream as the tokenizer sees it. -/
def icStream (s : PStream) : IcStream := { lead := s.lead, words := s.words.map fun w => (icWord w.1, w.2) }

theorem icStream_wf {s : PStream} (h : s.Fine u lower) : (icStream s).wf := ⟨h.lead, by
  intro w hw
  obtain ⟨x, hx, rfl⟩ := List.mem_map.1 hw
  exact ⟨(h.words x hx).1.icWord_wf, (h.words x hx).2⟩⟩

theorem icStream_render {s : PStream} (h : s.Fine u lower) : (icStream s).render = s.render := by
  unfold icStream IcStream.render PStream.render
  rw [List.flatMap_map]
  congr 1
  have : ∀ ws : List (Chunk × List Part), (∀ w ∈ ws, Fine u lower w.1) →
      (ws.flatMap fun a => '^' :: (icWord a.1).text ++ '$' :: renderParts a.2) = ws.flatMap fun w => '^' :: w.1.render ++ '$' :: renderParts w.2 := by
    intro ws hw
    induction ws with
    | nil => rfl
    | cons w ws ih => rw [List.flatMap_cons, List.flatMap_cons, ih fun x hx => hw x (by simp [hx]), (hw w (by simp)).icWord_text]
  exact this _ fun w hw => (h.words w hw).1

/-- The units of the input, as texts. -/
def texts (us : List (Chunk × Text)) : List (Text × Text) := us.map fun c => (c.1.render, c.2)

theorem icStream_units {s : PStream} (h : s.Fine u lower) : (icStream s).units = texts s.units := by
  unfold icStream IcStream.units PStream.units texts
  rw [List.map_map, List.map_map]
  exact List.map_congr_left fun w hw => by simp [(h.words w hw).1.icWord_text]

theorem stream_tokens {s : PStream} (h : s.Fine u lower) : Token.icRead false false s.render =
    .ok ({ toks := tokensOf (renderParts s.lead) (texts s.units), rest := [], more := false }, false) := by
  have hk := Token.C43_chunk_tokens false (icStream s) (icStream_wf h) [] [] false .eof
  rw [List.append_nil, icStream_render h, icStream_units h] at hk
  exact hk

/-! ## What a rule sees -/

/-- The text is one in which `{` and `]` are escaped. -/
def Good (t : Text) : Prop := ∃ as : List Atom, (∀ a ∈ as, a.wf ['{', ']']) ∧ t = renderAtoms as

theorem Good.append {s t : Text} (h : Good s) (h' : Good t) : Good (s ++ t) := by
  obtain ⟨as, h1, rfl⟩ := h
  obtain ⟨bs, h2, rfl⟩ := h'
  refine ⟨as ++ bs, fun a ha => ?_, (renderAtoms_append _ _).symm⟩
  rcases List.mem_append.1 ha with ha | ha
  · exact h1 a ha
  · exact h2 a ha

theorem Good.flatMap {α : Type} {f : α → Text} {xs : List α} (h : ∀ x ∈ xs, Good (f x)) : Good (xs.flatMap f) := by
  induction xs with
  | nil => exact ⟨[], (by simp), rfl⟩
  | cons x xs ih => exact (h x (by simp)).append (ih fun y hy => h y (by simp [hy]))

theorem Good.chars {t : Text} (h : ∀ c ∈ t, c ∉ ['\\', '{', ']', '\x00']) : Good t := by
  refine ⟨t.map .lit, fun a ha => ?_, (renderAtoms_lits t).symm⟩
  obtain ⟨c, hc, rfl⟩ := List.mem_map.1 ha
  have := h c hc
  simp only [List.mem_cons, List.not_mem_nil, or_false, not_or] at this
  exact ⟨this.1, this.2.2.2, by simp [this]⟩

theorem good_tag {n : Text} (h : ∀ c ∈ n, c ∉ ['\\', '{', ']', '\x00']) : Good (tagText n) := by
  refine Good.chars fun c hc => ?_
  simp only [tagText, List.cons_append, List.mem_cons, List.mem_append, List.not_mem_nil, or_false] at hc
  rcases hc with rfl | hc | rfl
  · decide
  · exact h c hc
  · decide

theorem good_kth {tags : List Text} (h : ∀ t ∈ tags, Good (tagText t)) (k : Int) : Good (kthTag tags k) := by
  unfold kthTag
  split
  · cases hx : (tags.map tagText)[k.toNat - 1]? with
    | none => exact ⟨[], (by simp), rfl⟩
    | some t =>
      obtain ⟨t', ht, rfl⟩ := List.mem_map.1 (List.mem_of_getElem? hx)
      exact h t' ht
  · exact ⟨[], (by simp), rfl⟩

/-- Also with upper case. -/
def SymGood (u : Uni) (s : Sym) : Prop := Good s.text ∧ Good (s.upper u).text

theorem Fine.syms {c : Chunk} (h : Fine u lower c) : ∀ w ∈ c.words, ∀ p ∈ w.1.pieces, SymGood u (p.sym u c.tags) := by
  intro w hw p hp
  have hpl := (h.words w hw).1 p hp
  have ht : ∀ t ∈ c.tags, Good (tagText t) := fun t ht => good_tag fun x hx => by
    have := h.tags t ht x hx
    simp only [List.mem_cons, List.not_mem_nil, or_false, not_or] at this ⊢
    exact ⟨this.2.2.1, this.2.1, this.2.2.2.2.1, this.2.2.2.2.2.2.2⟩
  cases p with
  | lit x =>
    have h1 := hpl.1
    simp only [List.mem_cons, List.not_mem_nil, or_false, not_or] at h1
    refine ⟨Good.chars fun y hy => ?_, Good.chars fun y hy => ?_⟩
    · have : y = x := by simpa [Piece.sym, Sym.text] using hy
      subst this
      simp [h1]
    · have : y = u.toupper x := by simpa [Piece.sym, Sym.upper, Sym.text] using hy
      subst this
      exact hpl.2
  | esc x =>
    have hg : Good ['\\', x] := ⟨[.esc x], fun a ha => by rw [List.mem_singleton.1 ha]; exact hpl, rfl⟩
    exact ⟨hg, hg⟩
  | tag n =>
    have hg : Good (tagText n) := good_tag fun x hx => by
      have := hpl.1 x hx
      simp only [List.mem_cons, List.not_mem_nil, or_false, not_or] at this ⊢
      exact ⟨this.2.1, this.2.2.1, this.2.2.2.2.1, this.2.2.2.2.2⟩
    exact ⟨hg, hg⟩
  | ref d => exact ⟨good_kth ht _, good_kth ht _⟩

theorem upperFirst_good {w : List Sym} (h : ∀ s ∈ w, SymGood u s) : ∀ s ∈ upperFirst u w, Good s.text := by
  induction w with
  | nil => intro s hs; cases hs
  | cons x w ih =>
    intro s hs
    simp only [upperFirst] at hs
    split at hs
    · rcases List.mem_cons.1 hs with rfl | hs
      · exact (h x (by simp)).2
      · exact (h s (by simp [hs])).1
    · rcases List.mem_cons.1 hs with rfl | hs
      · exact (h s (by simp)).1
      · exact ih (fun s hs => h s (by simp [hs])) s hs

theorem withCase_good {ws : List (List Sym)} (h : ∀ w ∈ ws, ∀ s ∈ w, SymGood u s) (k : Case) : ∀ w ∈ withCase u k ws, ∀ s ∈ w, Good s.text := by
  cases k with
  | aa => intro w hw s hs; simp only [withCase] at hw; exact (h w hw s hs).1
  | AA =>
    intro w hw s hs
    simp only [withCase] at hw
    obtain ⟨w', hw', rfl⟩ := List.mem_map.1 hw
    obtain ⟨s', hs', rfl⟩ := List.mem_map.1 hs
    exact (h w' hw' s' hs').2
  | Aa =>
    induction ws with
    | nil => intro w hw; cases hw
    | cons x ws ih =>
      intro w hw s hs
      simp only [withCase] at hw
      split at hw
      · rcases List.mem_cons.1 hw with rfl | hw
        · exact upperFirst_good (h x (by simp)) s hs
        · exact (h w (by simp [hw]) s hs).1
      · rcases List.mem_cons.1 hw with rfl | hw
        · exact (h w (by simp) s hs).1
        · exact ih (fun w hw => h w (by simp [hw])) w hw s hs

theorem Fine.wordTexts {c : Chunk} (h : Fine u lower c) (k : Case) : ∀ t ∈ c.wordTexts u k, Good t := by
  intro t ht
  obtain ⟨w, hw, rfl⟩ := List.mem_map.1 ht
  refine Good.flatMap (withCase_good (u := u) (fun x hx s hs => ?_) k w hw)
  obtain ⟨y, hy, rfl⟩ := List.mem_map.1 hx
  obtain ⟨p, hp, rfl⟩ := List.mem_map.1 hs
  exact h.syms y hy p hp

theorem length_wordTexts (c : Chunk) (k : Case) : (c.wordTexts u k).length = c.words.length := by
  unfold Chunk.wordTexts
  rw [← Chunk.bodies_eq, Chunk.length_bodies, List.length_map]

theorem init_good {t : Text} (h : Good t) : IWord.init t = .ok ⟨t, [], []⟩ := by
  obtain ⟨as, h1, rfl⟩ := h
  exact (Chunk.C18_word as h1).1

theorem init_word {w : Chunk.Word} (hw : ∀ b, w.wb = some b → ∀ a ∈ b, a.wf ['[', ']', '{', '}']) {t : Text} (h : Good t) :
    IWord.init (w.wbText ++ t) = .ok ⟨t, [], w.wbText⟩ := by
  unfold Chunk.Word.wbText
  cases hb : w.wb with
  | none => exact init_good h
  | some b =>
    obtain ⟨as, h1, rfl⟩ := h
    have := (Chunk.C18_word as h1).2 b fun a ha => wf_mono (by simp) (hw b hb a ha)
    simpa using this

theorem ruleWords_zip {ws : List (Chunk.Word × List Blank)} (hw : ∀ w ∈ ws, ∀ b, w.1.wb = some b → ∀ a ∈ b, a.wf ['[', ']', '{', '}']) {ts : List Text}
    (ht : ∀ t ∈ ts, Good t) : ruleWords (List.zipWith (fun w t => w.1.wbText ++ t) ws ts) = .ok (List.zipWith (fun w t => ⟨t, [], w.1.wbText⟩) ws ts) := by
  induction ws generalizing ts with
  | nil => rfl
  | cons w ws ih =>
    cases ts with
    | nil => rfl
    | cons t ts =>
      simp only [List.zipWith_cons_cons, ruleWords]
      rw [init_word (hw w (by simp)) (ht t (by simp)), ih (fun w h => hw w (by simp [h])) (fun t h => ht t (by simp [h]))]
      rfl

theorem Fine.headGood {c : Chunk} (h : Fine u lower c) : Good c.head :=
  ⟨Postchunk.headAtoms c, fun a ha => wf_mono (by simp) (h.headAtoms a ha), (render_headAtoms c).symm⟩

/-- The words and blanks of the chunk. -/
theorem Fine.split {c : Chunk} (hd : u.isdigit '>' = false) (h : Fine u lower c) (b : Text) :
    ∃ bl, Chunk.splitWordsAndBlanks u c.render [b] =
        .ok (List.zipWith (fun w t => w.1.wbText ++ t) c.words (c.wordTexts u (u.getcase (renderAtoms c.lem))), bl) ∧
      (c.words.length ≤ bl.length ∨ c.words.length ≤ 1) ∧ (bl.drop 1).take (c.words.length - 1) = c.words.dropLast.map fun w => renderBlanks w.2 := by
  by_cases hne : c.words = []
  · refine ⟨[b], ?_, Or.inr (by simp [hne]), by simp [hne]⟩
    rw [h.render_eq]
    unfold Chunk.splitWordsAndBlanks
    rw [Chunk.vecTags_head c h.wf, Chunk.pseudolemma_head c h.wf, Chunk.beginChunk_head c h.wf]
    simp only [Outcome.bind, hne, List.flatMap_nil, List.nil_append, List.zipWith_nil_left]
    rfl
  · have hv := Chunk.C42_rule_sees_partial u hd c h.wf hne h.lead (fun w hw b hb => (h.wblanks w hw b hb).2) b
    unfold Chunk.ruleView at hv
    obtain ⟨⟨ws, bl⟩, h1, hv⟩ := ok_bind_eq hv
    obtain ⟨z, _, hv⟩ := ok_bind_eq hv
    split at hv
    · rename_i hle
      have hv := Outcome.ok.inj hv
      have e1 := congrArg Chunk.RuleView.words hv
      have e2 := congrArg Chunk.RuleView.blanks hv
      simp only [Chunk.Chunk.seen] at e1 e2
      have hl : ws.length = c.words.length := by rw [e1, List.length_zipWith, length_wordTexts]; simp
      rw [hl] at hle e2
      exact ⟨bl, by rw [h1, e1], hle, e2⟩
    · cases hv

/-- What a rule does, for a chunk. -/
theorem apply_chunk {c : Chunk} (hd : u.isdigit '>' = false) (h : Fine u lower c) (env : TEnv) (d : Nat) (rules : List (List Instr)) (i : Nat) {action : List Instr}
    (hr : rules[i]? = some action) (b : Text) {v : PSt} (hv : v.blanks = []) :
    applyRule u env d rules (i + 1) [c.render] [b] 1 v = (processRule env d action (ruleState u c v)).map fun (n, s) => (n, s.out, s.rest) := by
  obtain ⟨bl, h1, h2, h3⟩ := h.split hd b
  have hz : Chunk.wordzero c.render = .ok c.head := by rw [h.render_eq]; exact Chunk.wordzero_head c h.wf _
  have hl : (List.zipWith (fun w t => w.1.wbText ++ t) c.words (c.wordTexts u (u.getcase (renderAtoms c.lem)))).length = c.words.length := by
    rw [List.length_zipWith, length_wordTexts, Nat.min_self]
  simp only [applyRule]
  rw [h1, hz]
  simp only [Outcome.bind]
  rw [init_good h.headGood]
  simp only []
  rw [ruleWords_zip (fun w hw b hb => (h.wblanks w hw b hb).1) (h.wordTexts _)]
  simp only [hl, if_pos h2, Nat.add_sub_cancel, hr, h3, hv, List.nil_append, List.length_zipWith, length_wordTexts, Nat.min_self]
  rfl

end Verif.Postchunk
