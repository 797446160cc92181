import Verif.Tsx.Loop
namespace Verif.Tsx
open Verif.Tagger (Tags sinsert)

/-! ### Going through a list of elements -/

def Going (x : Text) (n : Node) : Prop := n.isEnd = false ∨ n.name ≠ x

theorem Going.until {x : Text} {n : Node} (h : Going x n) (r : List Node) (d : Data) : untilEnd x ⟨n, r, d⟩ = true := by
  rcases h with h | h <;> simp [untilEnd, h]

/-- The body passes text and comments. -/
def SkipsText (body : S → Outcome (S × Bool)) : Prop :=
  ∀ n r cur d, (n.name = t!"#text" ∨ n.name = t!"#comment") → body ⟨cur, n :: r, d⟩ = .ok (⟨n, r, d⟩, false)

theorem loop_gap {x : Text} {body : S → Outcome (S × Bool)} (hd : Dec body) (ht : SkipsText body) :
    ∀ (g : List Node), Gap g → ∀ cur tl d, Going x cur → ∃ cur', Going x cur' ∧
      loop (untilEnd x) body ⟨cur, g ++ tl, d⟩ = loop (untilEnd x) body ⟨cur', tl, d⟩ := by
  intro g
  induction g with
  | nil => intro _ cur tl d hg; exact ⟨cur, hg, rfl⟩
  | cons n g ih =>
    intro hgap cur tl d hg
    obtain ⟨h1, h2⟩ := hgap n (by simp)
    obtain ⟨cur', hg', he⟩ := ih (fun m hm => hgap m (by simp [hm])) n tl d (.inl h2)
    exact ⟨cur', hg', (loop_step hd (hg.until _ _) (ht n _ _ _ h1)).trans he⟩

def PreAll {α : Type} (f : Data → α → Data) (Pre : Data → α → Prop) : Data → List α → Prop
  | _, [] => True
  | d, a :: as => Pre d a ∧ PreAll f Pre (f d a) as

theorem PreAll.of_inv {α : Type} {f : Data → α → Data} {Pre : Data → α → Prop} (I : Data → Prop) : ∀ (as : List α) (d : Data), I d →
    (∀ d, ∀ a ∈ as, I d → Pre d a ∧ I (f d a)) → PreAll f Pre d as := by
  intro as
  induction as with
  | nil => intro d _ _; trivial
  | cons a as ih =>
    intro d h hI
    exact ⟨(hI d a (by simp) h).1, ih _ (hI d a (by simp) h).2 (fun d b hb => hI d b (by simp [hb]))⟩

theorem loop_many {α : Type} {x : Text} {body : S → Outcome (S × Bool)} (hd : Dec body) (ht : SkipsText body) {R : α → List Node → Prop}
    {f : Data → α → Data} {Pre : Data → α → Prop}
    (hR : ∀ a ns, R a ns → ∀ d cur tl, Pre d a → Going x cur → ∃ cur', Going x cur' ∧
      loop (untilEnd x) body ⟨cur, ns ++ tl, d⟩ = loop (untilEnd x) body ⟨cur', tl, f d a⟩) :
    ∀ as ns, Many R as ns → ∀ d cur tl, PreAll f Pre d as → Going x cur → ∃ cur', Going x cur' ∧
      loop (untilEnd x) body ⟨cur, ns ++ tl, d⟩ = loop (untilEnd x) body ⟨cur', tl, as.foldl f d⟩ := by
  intro as ns hm
  induction hm with
  | nil g hg => intro d cur tl _ hc; exact loop_gap hd ht g hg cur tl d hc
  | cons a as g ns r hg ha _ ih =>
    intro d cur tl hp hc
    obtain ⟨c1, hc1, e1⟩ := loop_gap hd ht g hg cur (ns ++ (r ++ tl)) d hc
    obtain ⟨c2, hc2, e2⟩ := hR a ns ha d c1 (r ++ tl) hp.1 hc1
    obtain ⟨c3, hc3, e3⟩ := ih (f d a) c2 tl hp.2 hc2
    refine ⟨c3, hc3, ?_⟩
    rw [show g ++ ns ++ r ++ tl = g ++ (ns ++ (r ++ tl)) by simp]
    exact e1.trans (e2.trans e3)

/-- An empty element in a loop whose body does `f` at its start and nothing at its end. -/
theorem loop_empty {x y : Text} {p : Node → Prop} {body : S → Outcome (S × Bool)} (hd : Dec body) (ht : SkipsText body) (hxy : y ≠ x) {d d' : Data}
    (hs : ∀ n r cur, Start y n → p n → body ⟨cur, n :: r, d⟩ = .ok (⟨n, r, d'⟩, false))
    (he : ∀ n r cur, End y n → body ⟨cur, n :: r, d'⟩ = .ok (⟨n, r, d'⟩, false)) {ns : List Node} (hn : Empty y p ns) (cur : Node) (tl : List Node) (hc : Going x cur) :
    ∃ cur', Going x cur' ∧ loop (untilEnd x) body ⟨cur, ns ++ tl, d⟩ = loop (untilEnd x) body ⟨cur', tl, d'⟩ := by
  cases hn with
  | short n h1 h2 => exact ⟨n, .inl h1.2, loop_step hd (hc.until _ _) (hs n _ _ h1 h2)⟩
  | long n e g h1 h2 hg h3 =>
    obtain ⟨c, hc', e1⟩ := loop_gap hd ht g hg n (e :: tl) d' (x := x) (.inl h1.2)
    refine ⟨e, .inr (by rw [h3.1]; exact hxy), ?_⟩
    rw [show n :: g ++ [e] ++ tl = n :: (g ++ e :: tl) by simp]
    exact (loop_step hd (hc.until _ _) (hs n _ _ h1 h2)).trans (e1.trans (loop_step hd (hc'.until _ _) (he e _ _ h3)))

/-! ### Skipping text -/

theorem isText_iff {n : Node} : isText n = true ↔ n.name = t!"#text" ∨ n.name = t!"#comment" := by simp [isText]

theorem skipText_gap : ∀ (g : List Node), Gap g → ∀ cur m tl d, (cur.name = t!"#text" ∨ cur.name = t!"#comment") → isText m = false →
    skipText ⟨cur, g ++ m :: tl, d⟩ = .ok ⟨m, tl, d⟩ := by
  intro g
  induction g with
  | nil =>
    intro _ cur m tl d hc hm
    refine (loop_step (s' := ⟨m, tl, d⟩) skipText_dec (isText_iff.2 hc) rfl).trans ?_
    exact loop_exit (cond := fun s => isText s.cur) (s := ⟨m, tl, d⟩) hm
  | cons n g ih =>
    intro hg cur m tl d hc hm
    refine (loop_step (s' := ⟨n, g ++ m :: tl, d⟩) skipText_dec (isText_iff.2 hc) rfl).trans ?_
    exact ih (fun k hk => hg k (by simp [hk])) n m tl d (hg n (by simp)).1 hm

theorem nextTag_gap (g : List Node) (hg : Gap g) (cur m : Node) (tl : List Node) (d : Data) (hm : isText m = false) :
    nextTag ⟨cur, g ++ m :: tl, d⟩ = .ok ⟨m, tl, d⟩ := by
  cases g with
  | nil =>
    simp only [nextTag, List.nil_append, step, Outcome.bind_ok, skipText]
    exact loop_exit (cond := fun s => isText s.cur) (s := ⟨m, tl, d⟩) hm
  | cons n g => exact skipText_gap g (fun k hk => hg k (by simp [hk])) n m tl d (hg n (by simp)).1 hm

theorem not_text {n : Node} {x : Text} (h : n.name = x) (h1 : x ≠ t!"#text") (h2 : x ≠ t!"#comment") : isText n = false := by
  simp [isText, h, h1, h2]

/-! ### Numbers -/

theorem tagRef_some {d : Data} {l : Text} {i : Nat} (h : mapFind d.tagIndex (tagKey l) = some i) : tagRef d l = (d, i) := by
  simp [tagRef, h]

theorem find_append_none {m : List (Text × Nat)} {k : Text} (h : mapFind m k = none) (r : List (Text × Nat)) : mapFind (m ++ r) k = mapFind r k := by
  simp only [mapFind, Option.map_eq_none_iff] at h
  simp [mapFind, List.find?_append, h]

theorem find_append_some {m : List (Text × Nat)} {k : Text} {i : Nat} (h : mapFind m k = some i) (r : List (Text × Nat)) : mapFind (m ++ r) k = some i := by
  simp only [mapFind, Option.map_eq_some_iff] at h
  obtain ⟨e, he, rfl⟩ := h
  simp [mapFind, List.find?_append, he]

theorem tagKey_inj {a b : Text} : tagKey a = tagKey b ↔ a = b := by simp [tagKey]

/-! ### Labels -/

theorem defLabel_skips (name : Text) : SkipsText (defLabelBody name) := by
  intro n r cur d h
  rcases h with h | h <;> simp [defLabelBody, step, isText, h]

/-- One more pattern. -/
def itemF (i : Nat) (d : Data) (a : Item) : Data := { d with plist := d.plist ++ [.item i a.lem a.tags] }

theorem loop_defLabel (name : Text) (i : Nat) (is : List Item) (c : List Node) (hm : Many WItem is c) (e : Node) (he : End t!"def-label" e) (cur : Node)
    (tl : List Node) (d : Data) (hi : mapFind d.tagIndex (tagKey name) = some i) (hc : Going t!"def-label" cur) :
    loop (untilEnd t!"def-label") (defLabelBody name) ⟨cur, c ++ e :: tl, d⟩ = .ok ⟨e, tl, is.foldl (itemF i) d⟩ := by
  have hR : ∀ a ns, WItem a ns → ∀ d cur tl, mapFind d.tagIndex (tagKey name) = some i → Going t!"def-label" cur → ∃ cur', Going t!"def-label" cur' ∧
      loop (untilEnd t!"def-label") (defLabelBody name) ⟨cur, ns ++ tl, d⟩ = loop (untilEnd t!"def-label") (defLabelBody name) ⟨cur', tl, itemF i d a⟩ := by
    intro a ns hw d cur tl hi hc
    refine loop_empty (defLabelBody_dec name) (defLabel_skips name) (by decide) ?_ ?_ hw cur tl hc
    · intro n r cur h1 h2
      simp [defLabelBody, step, h1.1, h1.2, addItem, tagRef_some hi, itemF, h2.1, h2.2]
    · intro n r cur h1
      simp [defLabelBody, step, h1.1, h1.2]
  obtain ⟨c', hc', h⟩ := loop_many (defLabelBody_dec name) (defLabel_skips name) (f := itemF i) (Pre := fun d _ => mapFind d.tagIndex (tagKey name) = some i) hR is c hm d cur
    (e :: tl) (.of_inv (fun d => mapFind d.tagIndex (tagKey name) = some i) is d hi (fun d a _ h => ⟨h, h⟩)) hc
  rw [h]
  refine loop_break (hc'.until _ _) ?_
  simp [defLabelBody, step, he.1]

/-- What the head of a definition does. -/
def tagF (d : Data) (name : Text) (closed : Bool) : Data :=
  { d with arrayTags := d.arrayTags ++ [name], tagIndex := d.tagIndex ++ [(tagKey name, d.arrayTags.length)],
           openClass := if closed then d.openClass else sinsert d.arrayTags.length d.openClass }

theorem tagF_find (d : Data) (name : Text) (closed : Bool) (h : mapFind d.tagIndex (tagKey name) = none) :
    mapFind (tagF d name closed).tagIndex (tagKey name) = some d.arrayTags.length := by
  simp only [tagF, find_append_none h]
  simp [mapFind]

theorem defTag_eq (n : Node) (r : List Node) (d : Data) (name : Text) (closed : Bool) (h1 : n.attrib t!"name" = name)
    (h2 : n.attrib t!"closed" = t!"true" ↔ closed = true) (h : mapFind d.tagIndex (tagKey name) = none) :
    defTag ⟨n, r, d⟩ = .ok ⟨n, r, tagF d name closed⟩ := by
  have hf := tagF_find d name closed h
  simp only [tagF] at hf
  subst h1
  cases closed with
  | true => simp [defTag, newDefTag, h, h2.2 rfl, tagF, mapSet]
  | false =>
    have : n.attrib t!"closed" ≠ t!"true" := fun hx => by simpa using h2.1 hx
    have hf' : mapFind (d.tagIndex ++ [(tagKey (n.attrib t!"name"), d.arrayTags.length)]) (tagKey (n.attrib t!"name")) = some d.arrayTags.length := hf
    simp [defTag, newDefTag, h, this, tagF, mapSet, tagRef, hf']

/-! ### Multiple labels -/

theorem seq_skips (name : Text) : SkipsText (seqBody name) := by
  intro n r cur d h
  rcases h with h | h <;> simp [seqBody, step, h]

def pieceF (num : Text → Nat) (i : Nat) (d : Data) (p : Piece) : Data :=
  match p with
  | .label l => { d with plist := d.plist ++ [.label i (num l)] }
  | .item a => { d with plist := d.plist ++ [.item i a.lem a.tags] }

def PieceOk (num : Text → Nat) (name : Text) (i : Nat) (d : Data) (p : Piece) : Prop :=
  mapFind d.tagIndex (tagKey name) = some i ∧ ∀ l, p = .label l → mapFind d.tagIndex (tagKey l) = some (num l)

theorem pieceF_index (num : Text → Nat) (i : Nat) (d : Data) (p : Piece) : (pieceF num i d p).tagIndex = d.tagIndex := by cases p <;> rfl

theorem loop_seq (num : Text → Nat) (name : Text) (i : Nat) (ps : List Piece) (c : List Node) (hm : Many WPiece ps c) (e : Node) (he : End t!"sequence" e) (cur : Node)
    (tl : List Node) (d : Data) (hi : mapFind d.tagIndex (tagKey name) = some i) (hl : ∀ l, Piece.label l ∈ ps → mapFind d.tagIndex (tagKey l) = some (num l))
    (hc : Going t!"sequence" cur) :
    loop (untilEnd t!"sequence") (seqBody name) ⟨cur, c ++ e :: tl, d⟩ = .ok ⟨e, tl, ps.foldl (pieceF num i) d⟩ := by
  have hR : ∀ a ns, WPiece a ns → ∀ d cur tl, PieceOk num name i d a → Going t!"sequence" cur → ∃ cur', Going t!"sequence" cur' ∧
      loop (untilEnd t!"sequence") (seqBody name) ⟨cur, ns ++ tl, d⟩ = loop (untilEnd t!"sequence") (seqBody name) ⟨cur', tl, pieceF num i d a⟩ := by
    intro a ns hw d cur tl hi hc
    cases a with
    | label l =>
      refine loop_empty (seqBody_dec name) (seq_skips name) (y := t!"label-item") (by decide) ?_ ?_ hw cur tl hc
      · intro n r cur h1 h2
        have h2' : n.attrib t!"label" = l := h2
        simp [seqBody, step, h1.1, h1.2, addLabel, tagRef_some hi.1, h2', tagRef_some (hi.2 l rfl), pieceF]
      · intro n r cur h1
        simp [seqBody, step, h1.1, h1.2]
    | item a =>
      refine loop_empty (seqBody_dec name) (seq_skips name) (y := t!"tags-item") (by decide) ?_ ?_ hw cur tl hc
      · intro n r cur h1 h2
        simp [seqBody, step, h1.1, h1.2, addItem, tagRef_some hi.1, pieceF, h2.1, h2.2]
      · intro n r cur h1
        simp [seqBody, step, h1.1, h1.2]
  obtain ⟨c', hc', h⟩ := loop_many (seqBody_dec name) (seq_skips name) (f := pieceF num i) (Pre := PieceOk num name i) hR ps c hm d cur
    (e :: tl) (.of_inv (fun d' => d'.tagIndex = d.tagIndex) ps d rfl (fun d' a ha h => ⟨⟨by rw [h]; exact hi, fun l hal => by rw [h]; exact hl l (hal ▸ ha)⟩,
      by rw [pieceF_index, h]⟩)) hc
  rw [h]
  refine loop_break (hc'.until _ _) ?_
  simp [seqBody, step, he.1]

theorem defMult_skips (name : Text) : SkipsText (defMultBody name) := by
  intro n r cur d h
  rcases h with h | h <;> simp [defMultBody, step, isText, h]

def seqF (num : Text → Nat) (i : Nat) (d : Data) (ps : List Piece) : Data :=
  { d with plist := d.plist ++ (.beginSeq :: ps.map (fun p => match p with | .label l => PatOp.label i (num l) | .item a => .item i a.lem a.tags) ++ [.endSeq]) }

theorem foldl_pieceF (num : Text → Nat) (i : Nat) (ps : List Piece) (d : Data) : ps.foldl (pieceF num i) d =
    { d with plist := d.plist ++ ps.map (fun p => match p with | .label l => PatOp.label i (num l) | .item a => .item i a.lem a.tags) } := by
  induction ps generalizing d with
  | nil => simp
  | cons p ps ih => cases p <;> simp [ih, pieceF]

theorem loop_defMult (num : Text → Nat) (name : Text) (i : Nat) (ss : List (List Piece)) (c : List Node)
    (hm : Many (fun ps => Elem t!"sequence" (fun _ => True) (Many WPiece ps)) ss c) (e : Node) (he : End t!"def-mult" e) (cur : Node)
    (tl : List Node) (d : Data) (hi : mapFind d.tagIndex (tagKey name) = some i) (hl : ∀ ps ∈ ss, ∀ l, Piece.label l ∈ ps → mapFind d.tagIndex (tagKey l) = some (num l))
    (hc : Going t!"def-mult" cur) :
    loop (untilEnd t!"def-mult") (defMultBody name) ⟨cur, c ++ e :: tl, d⟩ = .ok ⟨e, tl, ss.foldl (seqF num i) d⟩ := by
  have hR : ∀ ps ns, Elem t!"sequence" (fun _ => True) (Many WPiece ps) ns → ∀ d cur tl,
      (mapFind d.tagIndex (tagKey name) = some i ∧ ∀ l, Piece.label l ∈ ps → mapFind d.tagIndex (tagKey l) = some (num l)) → Going t!"def-mult" cur →
      ∃ cur', Going t!"def-mult" cur' ∧
      loop (untilEnd t!"def-mult") (defMultBody name) ⟨cur, ns ++ tl, d⟩ = loop (untilEnd t!"def-mult") (defMultBody name) ⟨cur', tl, seqF num i d ps⟩ := by
    rintro ps ns hw d cur tl ⟨hi, hl⟩ hc
    obtain ⟨n, e, c, h1, _, h3, h4⟩ := hw
    refine ⟨e, .inr (by rw [h4.1]; decide), ?_⟩
    refine loop_step (defMultBody_dec name) (hc.until _ _) ?_
    have := loop_seq num name i ps c h3 e h4 n tl { d with plist := d.plist ++ [.beginSeq] } hi hl (.inl h1.2)
    simp only [defMultBody, List.cons_append, List.append_assoc, List.nil_append, step, Outcome.bind_ok, h1.1, h1.2, if_true, Bool.false_eq_true, if_false, addOp, this]
    simp [foldl_pieceF, seqF]
  obtain ⟨c', hc', h⟩ := loop_many (defMultBody_dec name) (defMult_skips name) (f := seqF num i) hR ss c hm d cur
    (e :: tl) (.of_inv (fun d' => d'.tagIndex = d.tagIndex) ss d rfl (fun d' a ha h => ⟨⟨by rw [h]; exact hi, fun l hal => by rw [h]; exact hl a ha l hal⟩, h⟩)) hc
  rw [h]
  refine (loop_step (s' := ⟨e, tl, ss.foldl (seqF num i) d⟩) (defMultBody_dec name) (hc'.until _ _) ?_).trans (loop_exit ?_)
  · simp [defMultBody, step, he.1, isText]
  · simp [untilEnd, he.1, he.2]

/-! ### The tagset -/

def bodyOps (num : Text → Nat) (i : Nat) : Body → List PatOp
  | .items is => is.map (fun a => .item i a.lem a.tags)
  | .seqs ss => ss.flatMap (fun ps => .beginSeq :: ps.map (fun p => match p with | .label l => PatOp.label i (num l) | .item a => .item i a.lem a.tags) ++ [.endSeq])

def defF (num : Text → Nat) (d : Data) (x : Def) : Data :=
  { tagF d x.name x.closed with plist := d.plist ++ bodyOps num d.arrayTags.length x.body }

structure DefOk (num : Text → Nat) (d : Data) (x : Def) : Prop where
  fresh : mapFind d.tagIndex (tagKey x.name) = none
  labels : ∀ l ∈ x.body.labels, mapFind d.tagIndex (tagKey l) = some (num l)

theorem foldl_itemF (i : Nat) (is : List Item) (d : Data) : is.foldl (itemF i) d = { d with plist := d.plist ++ is.map (fun a => .item i a.lem a.tags) } := by
  induction is generalizing d with
  | nil => simp
  | cons a is ih => simp [ih, itemF]

theorem foldl_seqF (num : Text → Nat) (i : Nat) (ss : List (List Piece)) (d : Data) :
    ss.foldl (seqF num i) d = { d with plist := d.plist ++ bodyOps num i (.seqs ss) } := by
  induction ss generalizing d with
  | nil => simp [bodyOps]
  | cons a ss ih => simp [ih, seqF, bodyOps]

theorem tagset_skips : SkipsText tagsetBody := by
  intro n r cur d h
  rcases h with h | h <;> simp [tagsetBody, step, isText, h]

theorem loop_def (num : Text → Nat) (x : Def) (ns : List Node) (hw : WDef x ns) (d : Data) (cur : Node) (tl : List Node) (hx : DefOk num d x) (hc : Going t!"tagset" cur) :
    ∃ cur', Going t!"tagset" cur' ∧ loop (untilEnd t!"tagset") tagsetBody ⟨cur, ns ++ tl, d⟩ = loop (untilEnd t!"tagset") tagsetBody ⟨cur', tl, defF num d x⟩ := by
  obtain ⟨name, closed, body⟩ := x
  cases body with
  | items is =>
    obtain ⟨n, e, c, h1, ⟨h2, h2'⟩, h3, h4⟩ := hw
    refine ⟨e, .inr (by rw [h4.1]; decide), loop_step tagsetBody_dec (hc.until _ _) ?_⟩
    have ht := defTag_eq n (c ++ e :: tl) d name closed h2 h2' hx.fresh
    have := loop_defLabel name _ is c h3 e h4 n tl (tagF d name closed) (tagF_find d name closed hx.fresh) (.inl h1.2)
    simp only [tagsetBody, List.cons_append, List.append_assoc, List.nil_append, step, Outcome.bind_ok, h1.1, h1.2, if_true, Bool.false_eq_true, if_false, procDefLabel, ht, h2,
      this, Outcome.map_ok, foldl_itemF]
    rfl
  | seqs ss =>
    obtain ⟨n, e, c, h1, ⟨h2, h2'⟩, h3, h4⟩ := hw
    refine ⟨e, .inr (by rw [h4.1]; decide), loop_step tagsetBody_dec (hc.until _ _) ?_⟩
    have ht := defTag_eq n (c ++ e :: tl) d name closed h2 h2' hx.fresh
    have hl : ∀ ps ∈ ss, ∀ l, Piece.label l ∈ ps → mapFind (tagF d name closed).tagIndex (tagKey l) = some (num l) := by
      intro ps hps l hl
      refine find_append_some (hx.labels l ?_) _
      simp only [Body.labels, List.mem_filterMap, List.mem_flatten]
      exact ⟨.label l, ⟨ps, hps, hl⟩, rfl⟩
    have := loop_defMult num name _ ss c h3 e h4 n tl (tagF d name closed) (tagF_find d name closed hx.fresh) hl (.inl h1.2)
    have hne : ¬ (t!"def-mult" = t!"def-label") := by decide
    simp only [tagsetBody, List.cons_append, List.append_assoc, List.nil_append, step, Outcome.bind_ok, h1.1, h1.2, if_neg hne, if_true, Bool.false_eq_true, if_false, procDefMult, ht, h2,
      this, Outcome.map_ok, foldl_seqF]
    rfl

/-- Up to the start of the tagset. -/
theorem read_head (g0 g1 r : List Node) (n m : Node) (hg0 : Gap g0) (hn : Start t!"tagger" n) (hg1 : Gap g1) (h1 : Start t!"tagset" m) (d : Data) :
    procTagset ⟨{ name := [] }, g0 ++ n :: (g1 ++ m :: r), d⟩ = loop (untilEnd t!"tagset") tagsetBody ⟨m, r, d⟩ := by
  have hgap : ∀ (g : List Node), Gap g → ∀ (cur : Node) (r : List Node), cur.name ≠ t!"tagset" → ∃ cur' : Node, cur'.name ≠ t!"tagset" ∧
      loop (fun s => s.cur.isEnd || decide (s.cur.name ≠ t!"tagset")) tagsetHeadBody ⟨cur, g ++ r, d⟩ =
      loop (fun s => s.cur.isEnd || decide (s.cur.name ≠ t!"tagset")) tagsetHeadBody ⟨cur', r, d⟩ := by
    intro g
    induction g with
    | nil => intro _ cur r hc; exact ⟨cur, hc, rfl⟩
    | cons k g ih =>
      intro hg cur r hc
      have hk := (hg k (by simp)).1
      have hk' : k.name ≠ t!"tagset" := by rcases hk with h | h <;> (rw [h]; decide)
      obtain ⟨c', hc', e'⟩ := ih (fun q hq => hg q (by simp [hq])) k r hk'
      refine ⟨c', hc', Eq.trans ?_ e'⟩
      refine loop_step tagsetHeadBody_dec (by simp [hc]) ?_
      simp [tagsetHeadBody, step, isText_iff.2 hk]
  have hne : n.name ≠ t!"tagset" := by rw [hn.1]; decide
  obtain ⟨c1, hc1, e1⟩ := hgap g0 hg0 { name := [] } (n :: (g1 ++ (m :: r))) (by simp)
  obtain ⟨c2, hc2, e2⟩ := hgap g1 hg1 n (m :: r) hne
  have hhead : loop (fun s => s.cur.isEnd || decide (s.cur.name ≠ t!"tagset")) tagsetHeadBody ⟨{ name := [] }, g0 ++ n :: (g1 ++ (m :: r)), d⟩ =
      .ok ⟨m, r, d⟩ := by
    rw [e1, loop_step (s' := ⟨n, g1 ++ (m :: r), d⟩) tagsetHeadBody_dec (by simp [hc1]) (by simp [tagsetHeadBody, step, hn.1]), e2,
      loop_step (s' := ⟨m, r, d⟩) tagsetHeadBody_dec (by simp [hc2]) (by simp [tagsetHeadBody, step, h1.1])]
    exact loop_exit (by simp [h1.1, h1.2])
  simp only [procTagset, hhead, Outcome.bind_ok]

/-- The whole tagset, from the start of the file. -/
theorem read_tagset (num : Text → Nat) (defs : List Def) (g0 g1 ns : List Node) (n : Node) (hg0 : Gap g0) (hn : Start t!"tagger" n) (hg1 : Gap g1)
    (hw : Elem t!"tagset" (fun _ => True) (Many WDef defs) ns) (tl : List Node) (d : Data) (hd : PreAll (defF num) (DefOk num) d defs) :
    ∃ e, End t!"tagset" e ∧ procTagset ⟨{ name := [] }, g0 ++ n :: (g1 ++ (ns ++ tl)), d⟩ = .ok ⟨e, tl, defs.foldl (defF num) d⟩ := by
  obtain ⟨m, e, c, h1, _, h3, h4⟩ := hw
  refine ⟨e, h4, ?_⟩
  obtain ⟨c3, hc3, e3⟩ := loop_many tagsetBody_dec tagset_skips (f := defF num) (Pre := DefOk num) (fun a ns ha d cur tl hp hc => loop_def num a ns ha d cur tl hp hc)
    defs c h3 d m (e :: tl) hd (.inl h1.2)
  have hbody : loop (untilEnd t!"tagset") tagsetBody ⟨m, c ++ e :: tl, d⟩ = .ok ⟨e, tl, defs.foldl (defF num) d⟩ := by
    rw [e3]
    refine (loop_step (s' := ⟨e, tl, defs.foldl (defF num) d⟩) tagsetBody_dec (hc3.until _ _) ?_).trans (loop_exit ?_)
    · simp [tagsetBody, step, h4.1, isText]
    · simp [untilEnd, h4.1, h4.2]
  rw [show m :: c ++ [e] ++ tl = m :: (c ++ e :: tl) by simp, read_head g0 g1 _ n m hg0 hn hg1 h1, hbody]

end Verif.Tsx
