import Verif.Bil.Props
/-!
# C48: text no rule matches goes through transfer, interchunk and postchunk unharmed
-/
namespace Verif.Bil
open Verif.Stream
open Verif.Transfer
open Verif.Token
open Verif.Chunk (Piece Uni)

/-! ## Specification -/

/-- The input: text, then lexical units each with the text after it. -/
structure BilStream where
  lead : List Part
  words : List (Unit × List Part)

def Unit.render (x : Unit) : Text := x.wbText ++ '^' :: x.body ++ ['$']

def BilStream.render (s : BilStream) : Text := renderParts s.lead ++ s.words.flatMap fun w => w.1.render ++ renderParts w.2

/-- What should come out: every unit replaced by its first translation. -/
def BilStream.translated (s : BilStream) : Text :=
  renderParts s.lead ++ s.words.flatMap fun w => w.1.wbText ++ '^' :: text w.1.target ++ '$' :: renderParts w.2

/-- Special characters are escaped (all that lttoolbox escapes need not be); names of tags do not begin with a digit and contain no
special characters. -/
def Safe (u : Uni) : Piece → Prop
  | .lit c => c ∉ ['\\', '[', '/', '<', '^', '$', '}', '\x00']
  | .esc c => c ≠ '\x00'
  | .tag n => (∀ c ∈ n, c ∉ ['>', '\\', '[', '^', '$', '}', '\x00']) ∧ ∀ c ∈ n.head?, u.isdigit c = false
  | .ref _ => False

structure Unit.safe (u : Uni) (x : Unit) : Prop where
  wb : ∀ b, x.wb = some b → (∀ a ∈ b, a.wf ['[', ']', '$']) ∧ ∀ c, b.head? ≠ some (.esc c)
  source : ∀ p ∈ x.source, Safe u p
  targets : ∀ t ∈ x.targets, ∀ p ∈ t, Safe u p
  target : text x.target ≠ []

structure BilStream.safe (u : Uni) (s : BilStream) : Prop where
  lead : ∀ p ∈ s.lead, p.trWf
  words : ∀ w ∈ s.words, w.1.safe u ∧ ∀ p ∈ w.2, p.trWf

variable {σ V : Type}

/-- A run of one of the programs without null flush: the tokens, then the main loop with the default action `d`, no rule being applied. -/
def RunsTransfer (m : Matcher σ) (v : V) (input out : Text) : Prop :=
  ∃ rd n, trRead false input = .ok rd ∧
    loopRun m (Actions.mk (defaultOut false) fun _ _ _ _ _ => .fail) rd.toks n (loopInit m v) = some (.ok out)

def RunsInterchunk (m : Matcher σ) (v : V) (input out : Text) : Prop :=
  ∃ rd w n, icRead false false input = .ok (rd, w) ∧
    loopRun m (Actions.mk icDefault fun _ _ _ _ _ => .fail) rd.toks n (loopInit m v) = some (.ok out)

def RunsPostchunk (u : Uni) (dictCase : Bool) (m : Matcher σ) (v : V) (input out : Text) : Prop :=
  ∃ rd w n, icRead false false input = .ok (rd, w) ∧
    loopRun m (Actions.mk (Chunk.unchunk u dictCase) fun _ _ _ _ _ => .fail) rd.toks n (loopInit m v) = some (.ok out)

/-! ## Proof -/

theorem Safe.pieceWf {u : Uni} {p : Piece} (h : Safe u p) : PieceWf p := by
  cases p with
  | lit c =>
    simp only [Safe, PieceWf, List.mem_cons, List.not_mem_nil, or_false, not_or] at h ⊢
    exact ⟨h.1, h.2.1, h.2.2.1, h.2.2.2.1⟩
  | esc c => trivial
  | tag n =>
    intro c hc
    have := h.1 c hc
    simp only [List.mem_cons, List.not_mem_nil, or_false, not_or] at this ⊢
    exact ⟨this.1, this.2.1, this.2.2.1⟩
  | ref n => exact h.elim

theorem Safe.chunkWf {u : Uni} {p : Piece} (h : Safe u p) : p.wf u := by
  cases p with
  | lit c =>
    simp only [Safe, Piece.wf, List.mem_cons, List.not_mem_nil, or_false, not_or] at h ⊢
    exact ⟨h.1, h.2.2.2.1, h.2.2.2.2.2.1⟩
  | esc c => trivial
  | tag n =>
    refine ⟨fun hc => ?_, h.2⟩
    have := h.1 _ hc
    simp at this
  | ref n => exact h.elim

def pieceAtoms : Piece → List Atom
  | .lit c => [.lit c]
  | .esc c => [.esc c]
  | .tag n => .lit '<' :: n.map .lit ++ [.lit '>']
  | .ref n => .lit '<' :: n.map .lit ++ [.lit '>']

def textAtoms (ps : List Piece) : List Atom := ps.flatMap pieceAtoms

theorem renderAtoms_lits (t : Text) : renderAtoms (t.map .lit) = t := by
  induction t with
  | nil => rfl
  | cons c t ih => simp [Atom.render, ih]

theorem renderAtoms_append (a b : List Atom) : renderAtoms (a ++ b) = renderAtoms a ++ renderAtoms b := by simp [renderAtoms]

theorem render_pieceAtoms (p : Piece) : renderAtoms (pieceAtoms p) = p.render := by
  cases p <;> simp [pieceAtoms, Piece.render, Atom.render, renderAtoms_append, renderAtoms_lits]

theorem render_textAtoms (ps : List Piece) : renderAtoms (textAtoms ps) = text ps := by
  induction ps with
  | nil => rfl
  | cons p ps ih =>
    rw [show textAtoms (p :: ps) = pieceAtoms p ++ textAtoms ps from rfl, renderAtoms_append, ih, render_pieceAtoms]; rfl

/-- What is needed of the atoms of a safe text. -/
def AtomSafe (a : Atom) : Prop := a.wf ['[', '^', '$', '}']

theorem pieceAtoms_safe {u : Uni} {p : Piece} (h : Safe u p) : ∀ a ∈ pieceAtoms p, AtomSafe a := by
  intro a ha
  cases p with
  | lit c =>
    simp only [pieceAtoms, List.mem_cons, List.not_mem_nil, or_false] at ha
    subst ha
    simp only [Safe, List.mem_cons, List.not_mem_nil, or_false, not_or] at h
    refine ⟨h.1, h.2.2.2.2.2.2.2, ?_⟩
    simp [h]
  | esc c =>
    simp only [pieceAtoms, List.mem_cons, List.not_mem_nil, or_false] at ha
    subst ha; exact h
  | tag n =>
    simp only [pieceAtoms, List.cons_append, List.mem_cons, List.mem_append, List.mem_map, List.not_mem_nil, or_false] at ha
    rcases ha with rfl | ⟨c, hc, rfl⟩ | rfl
    · unfold AtomSafe; decide
    · have := h.1 c hc
      simp only [List.mem_cons, List.not_mem_nil, or_false, not_or] at this
      refine ⟨this.2.1, this.2.2.2.2.2.2, ?_⟩
      simp [this]
    · unfold AtomSafe; decide
  | ref n => exact h.elim

theorem textAtoms_safe {u : Uni} {ps : List Piece} (h : ∀ p ∈ ps, Safe u p) : ∀ a ∈ textAtoms ps, AtomSafe a := by
  intro a ha
  obtain ⟨p, hp, ha⟩ := List.mem_flatMap.1 ha
  exact pieceAtoms_safe (h p hp) a ha

def bodyAtoms (x : Unit) : List Atom := textAtoms x.source ++ x.targets.flatMap fun t => .lit '/' :: textAtoms t

theorem render_bodyAtoms (x : Unit) : renderAtoms (bodyAtoms x) = x.body := by
  unfold bodyAtoms Unit.body
  rw [renderAtoms_append, render_textAtoms]
  congr 1
  induction x.targets with
  | nil => rfl
  | cons t ts ih =>
    rw [List.flatMap_cons, List.flatMap_cons, renderAtoms_append, ih, renderAtoms_cons, render_textAtoms]; rfl

theorem bodyAtoms_safe {u : Uni} {x : Unit} (h : x.safe u) : ∀ a ∈ bodyAtoms x, AtomSafe a := by
  intro a ha
  rcases List.mem_append.1 ha with ha | ha
  · exact textAtoms_safe h.source a ha
  · obtain ⟨t, ht, ha⟩ := List.mem_flatMap.1 ha
    rcases List.mem_cons.1 ha with rfl | ha
    · unfold AtomSafe; decide
    · exact textAtoms_safe (h.targets t ht) a ha

theorem wf_mono {f g : List Char} (hfg : ∀ c ∈ g, c ∈ f) {a : Atom} (h : a.wf f) : a.wf g := by
  cases a with
  | esc c => exact h
  | lit c => exact ⟨h.1, h.2.1, fun hc => h.2.2 (hfg c hc)⟩

def trWord (x : Unit) : TrWord := { wb := x.wb, text := bodyAtoms x }

theorem trWord_wf {u : Uni} {x : Unit} (h : x.safe u) : (trWord x).wf := by
  unfold TrWord.wf trWord
  cases hb : x.wb with
  | none => exact fun a ha => wf_mono (by simp) (bodyAtoms_safe h a ha)
  | some b => exact ⟨fun a ha => wf_mono (by simp) ((h.wb b hb).1 a ha), fun a ha => wf_mono (by simp) (bodyAtoms_safe h a ha)⟩

theorem trWord_token (x : Unit) : (trWord x).token = x.token := by
  unfold TrWord.token trWord Unit.token Unit.wbText
  cases x.wb <;> simp [render_bodyAtoms]

theorem trWord_render (x : Unit) : (trWord x).render = x.render := by
  unfold TrWord.render trWord Unit.render Unit.wbText
  cases x.wb <;> simp [render_bodyAtoms]

/-- `unknown` or `default`. -/
def name (x : Unit) : Text := if (text x.target).head? = some '*' then "unknown".toList else "default".toList

def wbAtoms (x : Unit) : List Atom :=
  match x.wb with
  | none => []
  | some b => .lit '[' :: .lit '[' :: b ++ [.lit ']', .lit ']']

theorem render_wbAtoms (x : Unit) : renderAtoms (wbAtoms x) = x.wbText := by
  unfold wbAtoms Unit.wbText
  cases x.wb <;> simp [Atom.render, renderAtoms_append]

def icWord (x : Unit) : IcWord where
  head := (name x ++ '<' :: name x ++ ['>']).map .lit
  content := some (wbAtoms x ++ .lit '^' :: textAtoms x.target ++ [.lit '$'])

theorem target_safe {u : Uni} {x : Unit} (h : x.safe u) : ∀ p ∈ x.target, Safe u p := by
  intro p hp
  unfold Unit.target at hp
  cases hts : x.targets with
  | nil => rw [hts] at hp; simp at hp
  | cons t ts => rw [hts] at hp; exact h.targets t (by simp [hts]) p (by simpa using hp)

theorem icWord_wf {u : Uni} {x : Unit} (h : x.safe u) : (icWord x).wf := by
  refine ⟨?_, ?_⟩
  · simp only [icWord, name]
    split <;> decide +kernel
  · intro b hb
    simp only [icWord, Option.some.injEq] at hb
    subst hb
    have h1 : ∀ a ∈ wbAtoms x, a.wf [] ∧ a ≠ .lit '$' := by
      intro a ha
      unfold wbAtoms at ha
      cases hb : x.wb with
      | none => rw [hb] at ha; simp at ha
      | some b =>
        rw [hb] at ha
        simp only [List.cons_append, List.mem_cons, List.mem_append, List.not_mem_nil, or_false] at ha
        rcases ha with rfl | rfl | ha | rfl | rfl
        · decide
        · decide
        · have := (h.wb b hb).1 a ha
          exact ⟨wf_mono (by simp) this, fun e => by subst e; simp [Atom.wf] at this⟩
        · decide
        · decide
    have h2 : ∀ a ∈ Atom.lit '^' :: textAtoms x.target ++ [.lit '$'], a.wf [] ∧ a ≠ .lit '}' := by
      intro a ha
      simp only [List.cons_append, List.mem_cons, List.mem_append, List.not_mem_nil, or_false] at ha
      rcases ha with rfl | ha | rfl
      · decide
      · have := textAtoms_safe (target_safe h) a ha
        exact ⟨wf_mono (by simp) this, fun e => by subst e; simp [AtomSafe, Atom.wf] at this⟩
      · decide
    rw [List.append_assoc]
    refine ⟨fun a ha => ?_, ?_⟩
    · rcases List.mem_append.1 ha with ha | ha
      · exact (h1 a ha).1
      · exact (h2 a ha).1
    · rintro i ⟨e1, e2⟩
      by_cases hi : i < (wbAtoms x).length
      · by_cases hi2 : i + 1 < (wbAtoms x).length
        · rw [List.getElem?_append_left hi2] at e2
          exact (h1 _ (List.mem_of_getElem? e2)).2 rfl
        · rw [List.getElem?_append_right (by omega)] at e2
          have : i + 1 - (wbAtoms x).length = 0 := by omega
          rw [this] at e2
          simp at e2
      · rw [List.getElem?_append_right (by omega)] at e1
        exact (h2 _ (List.mem_of_getElem? e1)).2 rfl

/-- The text of the chunk made for a word. -/
def chunkText (x : Unit) : Text := name x ++ '<' :: name x ++ '>' :: '{' :: x.wbText ++ '^' :: text x.target ++ ['$', '}']

theorem icWord_text (x : Unit) : (icWord x).text = chunkText x := by
  unfold icWord IcWord.text chunkText
  simp [renderAtoms_append, render_wbAtoms, render_textAtoms, Atom.render, renderAtoms_lits]

theorem unit_wf {u : Uni} {x : Unit} (h : x.safe u) : x.wf where
  wb b hb a ha := wf_mono (by simp) ((h.wb b hb).1 a ha)
  source p hp := (h.source p hp).pieceWf
  targets t ht p hp := (h.targets t ht p hp).pieceWf

theorem default_chunk {u : Uni} {x : Unit} (h : x.safe u) : defaultOut false x.token = .ok ('^' :: chunkText x ++ ['$']) := by
  rw [C47_default x (unit_wf h) h.target]
  unfold chunkText name
  split <;> simp

def unitChunk (x : Unit) : Chunk.Chunk where
  lem := (name x).map .lit
  tags := [name x]
  lead := []
  words := [({ wb := x.wb, pieces := x.target }, [])]

theorem unitChunk_render (x : Unit) : (unitChunk x).render = chunkText x := by
  unfold Chunk.Chunk.render Chunk.Chunk.head unitChunk chunkText
  simp [renderAtoms_lits, Chunk.tagText, Chunk.renderBlanks, Chunk.Word.render, Chunk.Word.wbText, Unit.wbText, text]
  cases x.wb <;> rfl

theorem unitChunk_wf {u : Uni} {x : Unit} (h : x.safe u) : (unitChunk x).wf u where
  lem := by simp only [unitChunk, name]; split <;> decide +kernel
  tags := by simp only [unitChunk, name]; split <;> decide +kernel
  lead := by simp [unitChunk]
  words := by
    intro w hw
    simp only [unitChunk, List.mem_cons, List.not_mem_nil, or_false] at hw
    subst hw
    refine ⟨⟨?_, fun p hp => (target_safe h p hp).chunkWf⟩, by simp⟩
    intro b hb a ha
    exact wf_mono (by simp) ((h.wb b (by simpa using hb)).1 a ha)

theorem unchunk_unit (u : Uni) (hd : u.isdigit '>' = false) (hc : u.getcase "default".toList = .aa ∧ u.getcase "unknown".toList = .aa)
    (dictCase : Bool) {x : Unit} (h : x.safe u) :
    Chunk.unchunk u dictCase (chunkText x) = .ok (x.wbText ++ '^' :: text x.target ++ ['$']) := by
  rw [← unitChunk_render, Chunk.C41_unfold_partial u hd dictCase _ (unitChunk_wf h) (by intro c; simp [Chunk.Chunk.lastBlank, unitChunk])]
  have hk : (if dictCase = true then Chunk.Case.aa else u.getcase (renderAtoms (unitChunk x).lem)) = .aa := by
    cases dictCase with
    | true => rfl
    | false =>
      simp only [unitChunk, renderAtoms_lits, Bool.false_eq_true, if_false]
      unfold name
      split
      · exact hc.2
      · exact hc.1
  rw [hk]
  have htx : ∀ ps : List Piece, (∀ p ∈ ps, Safe u p) → (ps.map (Piece.sym u [name x])).flatMap Chunk.Sym.text = text ps := by
    intro ps hps
    induction ps with
    | nil => rfl
    | cons p ps ih =>
      rw [List.map_cons, List.flatMap_cons, ih (fun y hy => hps y (by simp [hy]))]
      have := hps p (by simp)
      cases p with
      | ref n => exact this.elim
      | _ => rfl
  simp only [Chunk.Chunk.unfolded, Chunk.Chunk.wordTexts, Chunk.withCase, unitChunk, List.map_cons, List.map_nil, Chunk.join, Chunk.renderBlanks,
    htx _ (target_safe h)]
  simp [Chunk.Word.wbText, Unit.wbText]
  cases x.wb <;> rfl

theorem part_wf {p : Part} (h : p.trWf) : p.wf := by
  cases p with
  | ch a => exact wf_mono (by simp) h
  | sup b => exact fun a ha => wf_mono (by simp) (h a ha)

/-- **C48.** Through apertium-transfer -b, apertium-interchunk and apertium-postchunk, none of whose rules matches anything, a text comes
out with every lexical unit replaced by its first translation; word-bound blanks stay with their words, and all else is as it was.
(`hc`: the words `default` and `unknown` are lower case.) -/
theorem C48_no_rules {m1 m2 m3 : Matcher σ} (h1 : m1.Ok) (h2 : m2.Ok) (h3 : m3.Ok) (n1 : ∀ s b, m1.classify s b = none)
    (n2 : ∀ s b, m2.classify s b = none) (n3 : ∀ s b, m3.classify s b = none) (v : V)
    (u : Uni) (hd : u.isdigit '>' = false) (hc : u.getcase "default".toList = .aa ∧ u.getcase "unknown".toList = .aa)
    (dictCase : Bool) (s : BilStream) (h : s.safe u) :
    ∃ o1 o2, RunsTransfer m1 v s.render o1 ∧ RunsInterchunk m2 v o1 o2 ∧ RunsPostchunk u dictCase m3 v o2 s.translated := by
  let ts : TrStream := { lead := s.lead, words := s.words.map fun w => (trWord w.1, w.2) }
  let is : IcStream := { lead := s.lead, words := s.words.map fun w => (icWord w.1, w.2) }
  have hts : ts.wf := ⟨h.lead, by
    intro w hw
    obtain ⟨x, hx, rfl⟩ := List.mem_map.1 hw
    exact ⟨trWord_wf (h.words x hx).1, (h.words x hx).2⟩⟩
  have hps : ts.PlainStart := by
    intro w hw b hb
    obtain ⟨x, hx, rfl⟩ := List.mem_map.1 hw
    exact ((h.words x hx).1.wb b hb).2
  have his : is.wf := ⟨fun p hp => part_wf (h.lead p hp), by
    intro w hw
    obtain ⟨x, hx, rfl⟩ := List.mem_map.1 hw
    exact ⟨icWord_wf (h.words x hx).1, fun p hp => part_wf ((h.words x hx).2 p hp)⟩⟩
  have hr : ts.render = s.render := by
    simp [ts, TrStream.render, BilStream.render, List.flatMap_map, trWord_render]
  refine ⟨is.render, is.render, ?_, ?_, ?_⟩
  · have hk := C43_transfer_tokens_partial false ts hts hps [] [] false .eof
    rw [List.append_nil, hr] at hk
    have hu : ts.units = s.words.map fun w => (w.1.token, renderParts w.2) := by
      simp [ts, TrStream.units, trWord_token, Function.comp_def]
    have hg : Greedy m1 (Actions.mk (V := V) (defaultOut false) fun _ _ _ _ _ => .fail) true false [] v ts.units
        (s.words.flatMap fun w => '^' :: chunkText w.1 ++ ['$'] ++ renderParts w.2) := by
      rw [hu]
      have hw := h.words
      revert hw
      generalize s.words = ws
      intro hw
      induction ws with
      | nil => exact .done
      | cons w ws ih =>
        refine .dflt (fun _ _ _ => n1 _ _) (default_chunk (hw w (by simp)).1) (ih fun x hx => hw x (by simp [hx]))
    obtain ⟨n, hn⟩ := C16_longest_match_partial h1 (local_of_unused _) (renderParts s.lead) ts.units v hg
    refine ⟨_, n, hk, ?_⟩
    rw [show renderParts ts.lead = renderParts s.lead from rfl, hn]
    simp [is, IcStream.render, List.flatMap_map, icWord_text]
  · obtain ⟨rd, n, a, b⟩ := C45_interchunk_identity h2 n2 v is his
    exact ⟨rd, false, n, a, b⟩
  · have hk := C43_chunk_tokens false is his [] [] false .eof
    rw [List.append_nil] at hk
    have hu : is.units = s.words.map fun w => (chunkText w.1, renderParts w.2) := by
      simp [is, IcStream.units, icWord_text, Function.comp_def]
    have hg : Greedy m3 (Actions.mk (V := V) (Chunk.unchunk u dictCase) fun _ _ _ _ _ => .fail) true false [] v is.units
        (s.words.flatMap fun w => w.1.wbText ++ '^' :: text w.1.target ++ ['$'] ++ renderParts w.2) := by
      rw [hu]
      have hw := h.words
      revert hw
      generalize s.words = ws
      intro hw
      induction ws with
      | nil => exact .done
      | cons w ws ih =>
        refine .dflt (fun _ _ _ => n3 _ _) (unchunk_unit u hd hc dictCase (hw w (by simp)).1) (ih fun x hx => hw x (by simp [hx]))
    obtain ⟨n, hn⟩ := C16_longest_match_partial h3 (local_of_unused _) (renderParts s.lead) is.units v hg
    refine ⟨_, false, n, hk, ?_⟩
    rw [show renderParts is.lead = renderParts s.lead from rfl, hn]
    simp [BilStream.translated]

/-- `[x] [[t:b]]^cat<n><a/b>/gat<n>/x\/y$ ^Foo/*Foo$.` -/
def exBil : BilStream where
  lead := [.sup [.lit 'x'], .ch (.lit ' ')]
  words := [(exUnit, [.ch (.lit ' ')]), ({ wb := none, source := "Foo".toList.map .lit, targets := ["*Foo".toList.map .lit] }, [.ch (.lit '.')])]

theorem exBil_safe : exBil.safe Chunk.ascii where
  lead := by decide +kernel
  words := by
    have hs : ∀ t : Text, (∀ c ∈ t, c ∉ ['\\', '[', '/', '<', '^', '$', '}', '\x00']) → ∀ p ∈ t.map Piece.lit, Safe Chunk.ascii p := by
      intro t ht p hp
      obtain ⟨c, hc, rfl⟩ := List.mem_map.1 hp
      exact ht c hc
    have htag : ∀ n : Text, (∀ c ∈ n, c ∉ ['>', '\\', '[', '^', '$', '}', '\x00']) → (∀ c ∈ n.head?, Chunk.ascii.isdigit c = false) →
        Safe Chunk.ascii (.tag n) := fun n a b => ⟨a, b⟩
    intro w hw
    simp only [exBil, List.mem_cons, List.not_mem_nil, or_false] at hw
    rcases hw with rfl | rfl
    · refine ⟨⟨?_, ?_, ?_, by decide +kernel⟩, by decide +kernel⟩
      · intro b hb
        simp only [exUnit, Option.some.injEq] at hb
        subst hb
        exact ⟨by decide +kernel, by simp⟩
      · intro p hp
        simp only [exUnit, List.mem_append, List.mem_cons, List.not_mem_nil, or_false] at hp
        rcases hp with hp | rfl | rfl
        · exact hs _ (by decide +kernel) p hp
        · exact htag _ (by decide +kernel) (by decide +kernel)
        · exact htag _ (by decide +kernel) (by decide +kernel)
      · intro t ht p hp
        simp only [exUnit, List.mem_cons, List.not_mem_nil, or_false] at ht
        rcases ht with rfl | rfl
        · simp only [List.mem_append, List.mem_cons, List.not_mem_nil, or_false] at hp
          rcases hp with hp | rfl
          · exact hs _ (by decide +kernel) p hp
          · exact htag _ (by decide +kernel) (by decide +kernel)
        · simp only [List.mem_cons, List.not_mem_nil, or_false] at hp
          rcases hp with rfl | rfl | rfl
          · show 'x' ∉ _; decide
          · show '/' ≠ _; decide
          · show 'y' ∉ _; decide
    · refine ⟨⟨by simp, ?_, ?_, by decide +kernel⟩, by decide +kernel⟩
      · exact hs _ (by decide +kernel)
      · intro t ht
        simp only [List.mem_cons, List.not_mem_nil, or_false] at ht
        subst ht
        exact hs _ (by decide +kernel)

example : exBil.render = "[x] [[t:b]]^cat<n><a/b>/gat<n>/x\\/y$ ^Foo/*Foo$.".toList := by decide +kernel
example : exBil.translated = "[x] [[t:b]]^gat<n>$ ^*Foo$.".toList := by decide +kernel
example : ∃ o1 o2, RunsTransfer noMatcher () exBil.render o1 ∧ RunsInterchunk noMatcher () o1 o2 ∧
    RunsPostchunk Chunk.ascii false noMatcher () o2 exBil.translated :=
  C48_no_rules noMatcher_ok noMatcher_ok noMatcher_ok (fun _ _ => rfl) (fun _ _ => rfl) (fun _ _ => rfl) () Chunk.ascii (by decide)
    (by decide +kernel) false exBil exBil_safe

/-- **C48 does not hold for tags that begin with a digit**: in a chunk they are references.  `^a/b<1>$` becomes `^b<default>$`. -/
theorem C48_digit_tag_violation :
    defaultOut false "a/b<1>".toList = .ok "^default<default>{^b<1>$}$".toList ∧
    Chunk.unchunk Chunk.ascii false "default<default>{^b<1>$}".toList = .ok "^b<default>$".toList := by decide +kernel

/-- **C48 does not hold for a target that ends with `}`** (not escaped): interchunk and postchunk take it for the end of the chunk. -/
theorem C48_brace_violation :
    defaultOut false "a/b}".toList = .ok "^default<default>{^b}$}$".toList ∧
    icRead false false "^default<default>{^b}$}$".toList =
      .ok (⟨[.blank [], .word "default<default>{^b}".toList, .eof "}$".toList], [], false⟩, false) := by decide +kernel

end Verif.Bil
