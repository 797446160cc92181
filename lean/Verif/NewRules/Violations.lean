import Verif.NewRules.Props
/-!
# C92: an example, and two ways to lose rules
-/
namespace Verif.NewRules
open Verif.Serial (oneByte)
open Verif.Tagger (Coll)
open Verif.Tsx (Doc Writes exDoc exNodes exDoc_ok exNodes_writes)

/-- Thousandths. -/
def thousandths : Doubles where
  val k := k / 1000
  round q := (q * 1000).floor.toNat % 2 ^ 64
  fits _ := Nat.mod_lt _ (by decide)

/-- A tagger with ten states and one class.  After a word of state 7 come words of states 7 and 8 with the same probability, and so after one of state 8; there is a discard. -/
def tagger : Serial.Hmm Nat :=
  ⟨⟨[7], [], [([97], 0)], [[97]], [], [], [], Coll.ofList [[7, 8]], 7, [[100]]⟩, 10, 1,
    fun i j => if (i = 7 ∨ i = 8) ∧ (j = 7 ∨ j = 8) then 500 else 0, fun _ _ => 5⟩

theorem tagger_valid : tagger.data.Valid := ⟨by decide +kernel, by decide +kernel, by decide +kernel, [[7, 8]], by decide +kernel, rfl⟩

theorem tagger_a : ∀ i j, tagger.a i j < 2 ^ 64 ∧ 0 ≤ thousandths.val (tagger.a i j) := by
  intro i j
  simp only [tagger, thousandths]
  refine ⟨by split <;> decide, by positivity⟩

theorem tagger_b : ∀ i j, tagger.b i j < 2 ^ 64 := fun _ _ => by simp only [tagger]; decide

/-- The definition that the tagger was made for has the verbs before the nouns. -/
def otherDoc : Doc where
  defs := [⟨t!"VERB", true, .items [⟨[], t!"vblex.*"⟩]⟩, ⟨t!"NOUN", false, .items [⟨[], t!"n.*"⟩, ⟨t!"dog", t!"np"⟩]⟩,
    ⟨t!"PRNOUN", false, .seqs [[.item ⟨t!"de", t!"pr"⟩, .label t!"NOUN"]]⟩]

theorem tagger_for : For tagger exDoc := by unfold For; decide

/-- The content of the file of the tagger. -/
def theFile : Serial.Bytes := (tagger.write oneByte false).getD []

theorem theFile_eq : tagger.write oneByte false = some theFile := by decide +kernel

/-- What the program writes. -/
def theResult : Serial.Bytes := match prog oneByte false 99 0 thousandths theFile exNodes with | .ok bs => bs | _ => []

set_option maxRecDepth 100000 in
theorem theResult_eq : prog oneByte false 99 0 thousandths theFile exNodes = .ok theResult := by decide +kernel

/-- The hypotheses of `C92_rules_partial` hold of it, if the tagger was made for the same definition: state 7 is NOUN, and what comes after a noun is only nouns now. -/
example : For tagger exDoc ∧ tagger.data.Valid ∧ 0 < tagger.m ∧ (∀ i j, tagger.a i j < 2 ^ 64 ∧ 0 ≤ thousandths.val (tagger.a i j)) ∧ exDoc.Ok ∧ Writes exDoc exNodes ∧
    prog oneByte false 99 0 thousandths theFile exNodes = .ok theResult ∧ Excludes exDoc t!"NOUN" t!"VERB" ∧
    ((Serial.Hmm.read oneByte true 99 (Serial.Data.new 0) theResult).map (fun p => [p.1.a 7 7, p.1.a 7 8, p.1.a 8 7, p.1.a 8 8])) = some [999, 0, 999, 0] :=
  ⟨tagger_for, tagger_valid, by decide, tagger_a, exDoc_ok, exNodes_writes, theResult_eq, .inl (by simp [exDoc]), by decide +kernel⟩

/-- C92: a definition with the same tags, in another order.  The tagger was made for a definition with VERB as state 7 and NOUN as state 8; the new definition says that no verb
follows a noun (and that after a verb comes a noun or the end of the sentence), and the numbers of the new definition are used: now every word after a noun is a verb. -/
theorem C92_order_violation :
    ∃ (old : Doc) (x : Serial.Hmm Nat) (file bs : Serial.Bytes) (y : Serial.Hmm Nat), old.tags.Perm exDoc.tags ∧ For x old ∧ x.write oneByte false = some file ∧
      exDoc.Ok ∧ Writes exDoc exNodes ∧ prog oneByte false 99 0 thousandths file exNodes = .ok bs ∧
      Serial.Hmm.read oneByte true 99 (Serial.Data.new 0) bs = some (y, []) ∧ Excludes exDoc t!"NOUN" t!"VERB" ∧ ¬ Excludes exDoc t!"NOUN" t!"NOUN" ∧
      (x.a (old.num t!"NOUN") (old.num t!"VERB"), x.a (old.num t!"NOUN") (old.num t!"NOUN")) = (500, 500) ∧
      (y.a (old.num t!"NOUN") (old.num t!"VERB"), y.a (old.num t!"NOUN") (old.num t!"NOUN")) = (999, 0) := by
  have hr : ((Serial.Hmm.read oneByte true 99 (Serial.Data.new 0) theResult).map (fun p => (p.2, p.1.a (otherDoc.num t!"NOUN") (otherDoc.num t!"VERB"),
      p.1.a (otherDoc.num t!"NOUN") (otherDoc.num t!"NOUN")))) = some ([], 999, 0) := by decide +kernel
  cases he : Serial.Hmm.read oneByte true 99 (Serial.Data.new 0) theResult with
  | none => rw [he] at hr; cases hr
  | some p =>
    obtain ⟨y, rest⟩ := p
    rw [he] at hr
    simp only [Option.map_some, Option.some.injEq, Prod.mk.injEq] at hr
    obtain ⟨rfl, h1, h2⟩ := hr
    exact ⟨otherDoc, tagger, theFile, theResult, y, by decide, by unfold For; decide, theFile_eq, exDoc_ok, exNodes_writes, theResult_eq, he, .inl (by simp [exDoc]), by simp [Excludes, exDoc],
      by decide, by rw [h1, h2]⟩

/-- C92: the program only says that it changes rules, but it loses the discards of the tagger, which are not replaced by those of the definition either. -/
theorem C92_discard_violation : ∃ (doc : Doc) (x : Serial.Hmm Nat) (file bs : Serial.Bytes) (y : Serial.Hmm Nat) (ns : List Tsx.Node), For x doc ∧
    x.write oneByte false = some file ∧ doc.Ok ∧ Writes doc ns ∧ prog oneByte false 99 0 thousandths file ns = .ok bs ∧
    Serial.Hmm.read oneByte true 99 (Serial.Data.new 0) bs = some (y, []) ∧ x.data.discard ≠ [] ∧ y.data.discard = [] := by
  obtain ⟨y, h1, h2, _⟩ := C92_rules_partial oneByte false true 99 0 thousandths tagger tagger_valid tagger_a tagger_b (by decide) false theFile theFile_eq exDoc exDoc tagger_for
    (by decide) rfl exDoc_ok exNodes exNodes_writes theResult theResult_eq
  exact ⟨exDoc, tagger, theFile, theResult, y, exNodes, tagger_for, theFile_eq, exDoc_ok, exNodes_writes, theResult_eq, h1, by decide, by rw [h2]⟩

end Verif.NewRules
