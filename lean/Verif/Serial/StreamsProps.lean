import Verif.Serial.Streams
/-!
# C29: what is read back from a file of the unigram and perceptron taggers
-/
namespace Verif.Serial
open Verif.Tagger (Tags Coll sinsert Sorted)
open Verif.Unigram (Morpheme Analysis)

variable {P D : Type} (F : Formats P D)

/-- What was written is read back, whatever follows. -/
def Back {α : Type} (w : Bytes) (r : Rd α) (a : α) : Prop := ∀ rest, r (w ++ rest) = some (a, rest)

theorem Back.codec {α : Type} (c : Codec α) (a : α) : Back (c.write a) c.read a := fun rest => c.roundtrip a rest

theorem Back.seq {α β : Type} {w1 w2 : Bytes} {r : Rd α} {f : α → Rd β} {a : α} {b : β} (h1 : Back w1 r a) (h2 : Back w2 (f a) b) :
    Back (w1 ++ w2) (Rd.bind r f) b := by
  intro rest
  unfold Rd.bind
  rw [List.append_assoc, h1]
  exact h2 rest

theorem Back.map {α β : Type} {w : Bytes} {r : Rd α} {a : α} (h : Back w r a) (f : α → β) : Back w (Rd.bind r (fun x => Rd.pure (f x))) (f a) := by
  intro rest
  unfold Rd.bind
  rw [h]
  rfl

theorem Back.times {α σ : Type} {f : α → Bytes} {step : σ → Rd σ} {g : σ → α → σ} (l : List α) (s : σ)
    (h : ∀ s, ∀ x ∈ l, Back (f x) (step s) (g s x)) : Back (l.flatMap f) (Rd.times step l.length s) (l.foldl g s) := by
  induction l generalizing s with
  | nil => intro rest; rfl
  | cons x l ih =>
    rw [List.flatMap_cons]
    exact Back.seq (h s x (List.mem_cons_self ..)) (ih _ (fun s y hy => h s y (List.mem_cons_of_mem _ hy)))

theorem Back.vec {α : Type} {f : α → Bytes} {r : Rd α} (l : List α) (h : ∀ x ∈ l, Back (f x) r x) : Back (vecWrite F f l) (vecRead F r) l := by
  have := Back.seq (Back.codec F.size l.length) (f := fun n => Rd.times (fun l => Rd.bind r (fun x => Rd.pure (l ++ [x]))) n [])
    (Back.times (g := fun s x => s ++ [x]) l [] (fun s x hx => (h x hx).map (fun x => s ++ [x])))
  rw [foldl_push] at this
  exact this

theorem oinsert_append {α κ : Type} (lt : κ → κ → Bool) (key : α → κ) (has : ∀ a b, lt a b = true → lt b a = false) (x : α) (l : List α)
    (h : ∀ y ∈ l, lt (key y) (key x) = true) : oinsert lt key x l = l ++ [x] := by
  induction l with
  | nil => rfl
  | cons y l ih =>
    have hy := h y (List.mem_cons_self ..)
    unfold oinsert
    rw [if_neg (by rw [has _ _ hy]; decide), if_pos hy, ih (fun z hz => h z (List.mem_cons_of_mem _ hz))]
    rfl

theorem foldl_oinsert {α κ : Type} (lt : κ → κ → Bool) (key : α → κ) (has : ∀ a b, lt a b = true → lt b a = false) (l s : List α)
    (h : (s ++ l).Pairwise (fun p q => lt (key p) (key q) = true)) : l.foldl (fun s x => oinsert lt key x s) s = s ++ l := by
  induction l generalizing s with
  | nil => simp
  | cons x l ih =>
    have hx : ∀ y ∈ s, lt (key y) (key x) = true := fun y hy => (List.pairwise_append.1 h).2.2 y hy x (List.mem_cons_self ..)
    rw [List.foldl_cons, oinsert_append lt key has x s hx, ih _ (by simpa using h)]
    simp

/-- In the order of its keys. -/
def InOrder {α κ : Type} (lt : κ → κ → Bool) (key : α → κ) (l : List α) : Prop := l.Pairwise (fun p q => lt (key p) (key q) = true)

theorem Back.ord {α κ : Type} {f : α → Bytes} {r : Rd α} (lt : κ → κ → Bool) (key : α → κ) (has : ∀ a b, lt a b = true → lt b a = false) (l : List α)
    (hl : InOrder lt key l) (h : ∀ x ∈ l, Back (f x) r x) : Back (vecWrite F f l) (ordRead F lt key r) l := by
  have := Back.seq (Back.codec F.size l.length) (f := fun n => Rd.times (fun l => Rd.bind r (fun x => Rd.pure (oinsert lt key x l))) n [])
    (Back.times (g := fun s x => oinsert lt key x s) l [] (fun s x hx => (h x hx).map (fun x => oinsert lt key x s)))
  rw [foldl_oinsert lt key has _ _ (by simpa [InOrder] using hl)] at this
  exact this

/-! ### Orders -/

theorem lexLt_asymm {α : Type} {lt : α → α → Bool} (has : ∀ a b, lt a b = true → lt b a = false) (x y : List α) (h : lexLt lt x y = true) :
    lexLt lt y x = false := by
  induction x generalizing y with
  | nil =>
    cases y with
    | nil => rfl
    | cons b y => rfl
  | cons a x ih =>
    cases y with
    | nil => cases h
    | cons b y =>
      unfold lexLt at h ⊢
      split at h
      · rename_i hab
        rw [if_neg (by rw [has _ _ hab]; decide), if_pos hab]
      · rename_i hab
        split at h
        · cases h
        · rename_i hba
          rw [if_neg hba, if_neg hab]
          exact ih y h

theorem ltMorph_asymm (a b : Morpheme) (h : ltMorph F a b = true) : ltMorph F b a = false := by
  unfold ltMorph at h ⊢
  split at h
  · rename_i hne
    rw [if_pos (fun e => hne e.symm)]
    exact F.asymmU _ _ h
  · rename_i he
    rw [if_neg (fun hne => he (fun e => hne e.symm))]
    exact lexLt_asymm F.asymmU _ _ h

theorem ltAnalysis_asymm (a b : Analysis) (h : ltAnalysis F a b = true) : ltAnalysis F b a = false := lexLt_asymm (ltMorph_asymm F) _ _ h

theorem ltA_asymm (a b : List Text × List Morpheme) (h : ltA F a b = true) : ltA F b a = false := by
  unfold ltA at h ⊢
  split at h
  · rename_i he
    rw [if_pos he.symm]
    exact lexLt_asymm (ltMorph_asymm F) _ _ h
  · rename_i hne
    rw [if_neg (fun e => hne e.symm)]
    exact lexLt_asymm F.asymmU _ _ h

theorem ltI_asymm (a b : List Text) (h : ltI F a b = true) : ltI F b a = false := lexLt_asymm F.asymmU _ _ h

theorem ltInt_asymm (a b : Nat) (h : ltInt a b = true) : ltInt b a = false := by
  simp only [ltInt, decide_eq_true_eq, decide_eq_false_iff_not] at *
  omega

/-! ### Words -/

theorem back_morph (m : Morpheme) : Back (morphWrite F m) (morphRead F) m :=
  Back.seq (Back.codec F.ustr m.lemma) ((Back.vec F m.tags (fun t _ => Back.codec F.ustr t)).map (fun t => (⟨m.lemma, t⟩ : Morpheme)))

theorem back_morphs (l : List Morpheme) : Back (vecWrite F (morphWrite F) l) (vecRead F (morphRead F)) l := Back.vec F l (fun m _ => back_morph F m)

theorem back_i (x : List Text) : Back (iWrite F x) (iRead F) x := Back.vec F x (fun t _ => Back.codec F.ustr t)

theorem back_a (x : List Text × List Morpheme) : Back (aWrite F x) (aRead F) x :=
  Back.seq (back_i F x.1) ((back_morphs F x.2).map (fun m => (x.1, m)))

theorem back_analysis (a : Analysis) : Back (analysisWrite F a) (analysisRead F) a := (back_morphs F a.morphemes).map (fun m => (⟨m⟩ : Analysis))

theorem back_counts {κ : Type} {f : κ → Bytes} {r : Rd κ} (lt : κ → κ → Bool) (has : ∀ a b, lt a b = true → lt b a = false) (hr : ∀ k, Back (f k) r k)
    (m : Counts κ) (hm : InOrder lt Prod.fst m) : Back (countsWrite F f m) (countsRead F lt r) m :=
  Back.ord F lt Prod.fst has m hm (fun p _ => Back.seq (hr p.1) ((Back.codec F.size p.2).map (fun n => (p.1, n))))

theorem back_counts2 {κ μ : Type} {f : κ → Bytes} {r : Rd κ} {g : μ → Bytes} {r' : Rd μ} (lt : κ → κ → Bool) (lt' : μ → μ → Bool)
    (has : ∀ a b, lt a b = true → lt b a = false) (has' : ∀ a b, lt' a b = true → lt' b a = false)
    (hr : ∀ k, Back (f k) r k) (hr' : ∀ k, Back (g k) r' k) (m : List (κ × Counts μ)) (hm : InOrder lt Prod.fst m)
    (hm' : ∀ p ∈ m, InOrder lt' Prod.fst p.2) : Back (counts2Write F f g m) (counts2Read F lt r lt' r') m :=
  Back.ord F lt Prod.fst has m hm (fun p hp => Back.seq (hr p.1) ((back_counts F lt' has' hr' p.2 (hm' p hp)).map (fun n => (p.1, n))))

/-! ### Unigram -/

/-- What `std::map` guarantees. -/
structure UTagger.Valid (x : UTagger) : Prop where
  m1 : InOrder (ltAnalysis F) Prod.fst x.m1
  m2 : InOrder (ltA F) Prod.fst x.m2 ∧ ∀ p ∈ x.m2, InOrder F.ltU Prod.fst p.2
  lt : InOrder (ltI F) Prod.fst x.lt ∧ ∀ p ∈ x.lt, InOrder F.ltU Prod.fst p.2
  clct : InOrder (ltI F) Prod.fst x.clct ∧ ∀ p ∈ x.clct, InOrder F.ltU Prod.fst p.2
  ctcl : InOrder F.ltU Prod.fst x.ctcl ∧ ∀ p ∈ x.ctcl, InOrder (ltI F) Prod.fst p.2

/-- **C29 (unigram).**  For each of the three models: what one tagger writes, another tagger with the same model selected reads back exactly, whatever it
held before and whatever follows in the stream; its other tables stay as they are. -/
theorem C29_unigram (x y : UTagger) (hx : x.Valid F) (hm : y.model = x.model) (bs : Bytes) (h : x.write F = some bs) (rest : Bytes) :
    y.read F (bs ++ rest) = some ((match x.model with
      | .one => { y with m1 := x.m1 }
      | .two => { y with m2 := x.m2 }
      | .three => { y with lt := x.lt, clct := x.clct, ctcl := x.ctcl }
      | .unknown => y), rest) := by
  obtain ⟨ym, y1, y2, y3, y4, y5⟩ := y
  obtain ⟨xm, x1, x2, x3, x4, x5⟩ := x
  simp only at hm
  subst hm
  unfold UTagger.write at h
  unfold UTagger.read
  cases ym with
  | unknown => cases h
  | one =>
    cases h
    exact (back_counts F (ltAnalysis F) (ltAnalysis_asymm F) (back_analysis F) x1 hx.m1).map (fun m => (⟨.one, m, y2, y3, y4, y5⟩ : UTagger)) rest
  | two =>
    cases h
    exact (back_counts2 F (ltA F) F.ltU (ltA_asymm F) F.asymmU (back_a F) (Back.codec F.ustr) x2 hx.m2.1 hx.m2.2).map
      (fun m => (⟨.two, y1, m, y3, y4, y5⟩ : UTagger)) rest
  | three =>
    cases h
    have h1 := back_counts2 F (ltI F) F.ltU (ltI_asymm F) F.asymmU (back_i F) (Back.codec F.ustr) x3 hx.lt.1 hx.lt.2
    have h2 := back_counts2 F (ltI F) F.ltU (ltI_asymm F) F.asymmU (back_i F) (Back.codec F.ustr) x4 hx.clct.1 hx.clct.2
    have h3 := back_counts2 F F.ltU (ltI F) F.asymmU (ltI_asymm F) (Back.codec F.ustr) (back_i F) x5 hx.ctcl.1 hx.ctcl.2
    exact Back.seq h1 (Back.seq h2 (h3.map (fun m => (⟨.three, y1, y2, x3, x4, m⟩ : UTagger)))) rest

/-! ### Perceptron -/

theorem back_tags (s : Tags) (h : Sorted s) : Back (tagsWrite F s) (tagsRead F) s :=
  Back.ord F ltInt id ltInt_asymm s (by simpa [InOrder, ltInt, Sorted] using h) (fun x _ => Back.codec F.int x)

theorem back_names (m : List (Text × Nat)) (h : InOrder F.ltU Prod.fst m) : Back (namesWrite F m) (namesRead F) m :=
  Back.ord F F.ltU Prod.fst F.asymmU m h (fun p _ => Back.seq (Back.codec F.ustr p.1) ((Back.codec F.int p.2).map (fun n => (p.1, n))))

theorem back_coll (ts : List Tags) (h : ∀ t ∈ ts, Sorted t) : Back (collSerialise F (Coll.ofList ts)) (collDeserialise F {}) (Coll.ofList ts) := by
  have hm : ∀ t ∈ (Coll.ofList ts).element, Sorted t := by
    intro t ht
    have := (Tagger.Coll.mem_foldl Tagger.Coll.WF.empty ts t).1 ht
    exact h t (by simpa using this)
  have := Back.seq (Back.codec F.size (Coll.ofList ts).element.length)
    (f := fun n => Rd.times (fun (c : Coll) => Rd.bind (tagsRead F) (fun s => Rd.pure (c.add s).1)) n {})
    (Back.times (g := fun c s => (Coll.add c s).1) (Coll.ofList ts).element {}
      (fun c s hs => (back_tags F s (hm s hs)).map (fun s => (c.add s).1)))
  have he : List.foldl (fun c s => (Coll.add c s).1) {} (Coll.ofList ts).element = Coll.ofList ts := Tagger.Coll.ofList_element ts
  rw [he] at this
  exact this

/-- What the C++ types guarantee. -/
structure Coarse.Valid (c : Coarse P) : Prop where
  openClass : Sorted c.openClass
  tagIndex : InOrder F.ltU Prod.fst c.tagIndex
  constants : InOrder F.ltU Prod.fst c.constants
  output : ∃ ts, (∀ t ∈ ts, Sorted t) ∧ c.output = Coll.ofList ts

theorem back_coarse (c : Coarse P) (h : c.Valid F) : Back (coarseWrite F c) (coarseRead F) c := by
  obtain ⟨h1, h2, h3, ts, h4, h5⟩ := h
  have ho := back_coll F ts h4
  rw [← h5] at ho
  exact Back.seq (back_tags F _ h1) <| Back.seq (back_i F c.arrayTags) <| Back.seq (back_names F _ h2) <| Back.seq (back_names F _ h3) <|
    Back.seq ho ((Back.codec F.plist c.plist).map (fun p => (⟨c.openClass, c.arrayTags, c.tagIndex, c.constants, c.output, p⟩ : Coarse P)))

/-- What the C++ types guarantee. -/
structure PTagger.Valid (x : PTagger P D) : Prop where
  setConsts : ∀ s ∈ x.setConsts, InOrder F.ltB id s
  coarse : ∀ c, x.coarse = some c → c.Valid F
  weights : InOrder (ltKey F) Prod.fst x.weights

theorem back_strs (l : List Bytes) : Back (vecWrite F F.bstr.write l) (vecRead F F.bstr.read) l := Back.vec F l (fun s _ => Back.codec F.bstr s)

/-- **C29 (perceptron).**  What a perceptron tagger writes (beam width, constants, feature programs, coarse tags, weights) is read back exactly, whatever
follows in the stream. -/
theorem C29_perceptron (x : PTagger P D) (hx : x.Valid F) (rest : Bytes) : PTagger.read F (x.write F ++ rest) = some (x, rest) := by
  have hco : Back (match x.coarse with | some c => F.size.write 1 ++ coarseWrite F c | none => F.size.write 0)
      (Rd.bind F.size.read fun has => if has = 1 then Rd.bind (coarseRead F) (fun c => Rd.pure (some c)) else Rd.pure none) x.coarse := by
    cases e : x.coarse with
    | none =>
      intro r
      unfold Rd.bind
      rw [F.size.roundtrip]
      rfl
    | some c =>
      refine Back.seq (Back.codec F.size 1) ?_
      rw [if_pos rfl]
      exact (back_coarse F c (hx.coarse c e)).map some
  have hw : Back (weightsWrite F x.weights) (weightsRead F) x.weights :=
    Back.ord F (ltKey F) Prod.fst (fun a b h => lexLt_asymm F.asymmB a b h) _ hx.weights
      (fun p _ => Back.seq (back_strs F p.1) ((Back.codec F.double p.2).map (fun d => (p.1, d))))
  have hs : Back (vecWrite F (vecWrite F F.bstr.write) x.setConsts) (vecRead F (ordRead F F.ltB id F.bstr.read)) x.setConsts :=
    Back.vec F _ (fun s h => Back.ord F F.ltB id F.asymmB s (hx.setConsts s h) (fun b _ => Back.codec F.bstr b))
  exact Back.seq (Back.codec F.size x.beamWidth) (Back.seq (back_strs F _) (Back.seq hs (Back.seq (back_strs F _) (Back.seq (back_strs F _)
    (Back.seq (Back.codec F.bstr x.globalPred) (Back.seq hco (hw.map
      (fun w => (⟨x.beamWidth, x.strConsts, x.setConsts, x.features, x.globalDefns, x.globalPred, x.coarse, w⟩ : PTagger P D))))))))) rest

/-! ### A case -/

/-- the simplest formats: a number is a byte, a string its length and its units -/
def plain : Formats Nat Nat :=
  ⟨oneNat, oneNat, ⟨fun l => l.length :: l.map Char.toNat, fun bs => match bs with | [] => none | b :: r => some ((r.take b).map Char.ofNat, r.drop b), by
      intro p rest
      have : (Char.ofNat ∘ Char.toNat) = id := by funext c; simp
      simp [List.map_map, this]⟩,
    ⟨fun l => l.length :: l, fun bs => match bs with | [] => none | b :: r => some (r.take b, r.drop b), by intro p rest; simp⟩,
    oneNat, oneNat, fun a b => lexLt ltInt (a.map Char.toNat) (b.map Char.toNat), lexLt ltInt,
    fun _ _ h => lexLt_asymm ltInt_asymm _ _ h, fun _ _ h => lexLt_asymm ltInt_asymm _ _ h⟩
where
  oneNat : Codec Nat := ⟨fun n => [n], fun bs => match bs with | [] => none | b :: r => some (b, r), fun _ _ => rfl⟩

/-- two words counted by model 2 -/
def counted : UTagger := ⟨.two, [], [((["n".toList], []), [("cat".toList, 3), ("dog".toList, 5)]), ((["v".toList], [⟨"it".toList, ["prn".toList]⟩]), [("do".toList, 1)])],
  [], [], []⟩

example : counted.Valid plain ∧ (counted.write plain).isSome = true :=
  ⟨⟨by simp [counted, InOrder], ⟨by simp only [counted, InOrder]; decide +kernel, by simp only [counted, InOrder]; decide +kernel⟩, by simp [counted, InOrder],
    by simp [counted, InOrder], by simp [counted, InOrder]⟩, by decide +kernel⟩

/-- a perceptron with coarse tags -/
def taught : PTagger Nat Nat := ⟨8, [[65], [66, 67]], [[[1], [1, 2]]], [[7, 0, 9]], [], [],
  some ⟨[0, 3], ["A".toList], [("A".toList, 0), ("B".toList, 1)], [], Coll.ofList [[0, 3], [0]], 5⟩, [([[0], [65]], 12), ([[0], [66]], 13), ([[1]], 2)]⟩

example : taught.Valid plain := by
  refine ⟨by simp only [taught, InOrder]; decide +kernel, ?_, by simp only [taught, InOrder]; decide +kernel⟩
  intro c h
  cases h
  exact ⟨by decide +kernel, by simp only [InOrder]; decide +kernel, by simp [InOrder], [[0, 3], [0]], by decide +kernel, rfl⟩

end Verif.Serial
