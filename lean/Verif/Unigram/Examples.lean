import Verif.Unigram.TrainProps
import Verif.Unigram.SentenceProps
/-!
# Concrete cases that meet the hypotheses of the theorems on the unigram and sentence taggers
-/
namespace Verif.Unigram

/-- A test for `Closed`. -/
def closedB (s : List Char) : Text → Bool
  | [] => true
  | [c] => decide (c ≠ '\\' ∧ c ≠ '\x00' ∧ c ∉ s)
  | c :: d :: t =>
    if c = '\\' then decide (d ≠ '\x00') && closedB s t
    else decide (c ≠ '\x00' ∧ c ∉ s) && closedB s (d :: t)

theorem closedB_sound (s : List Char) (t : Text) (h : closedB s t = true) : Closed s t := by
  fun_induction closedB s t with
  | case1 => exact .nil
  | case2 c => simp at h; exact .lit h.1 h.2.1 h.2.2 .nil
  | case3 d t ih => simp at h; exact .esc h.1 (ih h.2)
  | case4 c d t hc ih => simp at h; exact .lit hc h.1.1 h.1.2 (ih h.2)

def morphB (m : Morpheme) : Bool :=
  decide (m.lemma ≠ []) && closedB ['<', '$', '/'] m.lemma && decide (m.tags ≠ []) &&
    m.tags.all (fun t => decide (t ≠ []) && closedB ['>'] t)

theorem morphB_sound (m : Morpheme) (h : morphB m = true) : m.wf := by
  simp only [morphB, Bool.and_eq_true, decide_eq_true_eq, List.all_eq_true] at h
  exact ⟨h.1.1.1, closedB_sound _ _ h.1.1.2, h.1.2, fun t ht => ⟨(h.2 t ht).1, closedB_sound _ _ (h.2 t ht).2⟩⟩

def analysisB (a : Analysis) : Bool := decide (a.morphemes ≠ []) && a.morphemes.all morphB

theorem analysisB_sound (a : Analysis) (h : analysisB a = true) : a.wf := by
  simp only [analysisB, Bool.and_eq_true, decide_eq_true_eq, List.all_eq_true] at h
  exact ⟨h.1, fun m hm => morphB_sound m (h.2 m hm)⟩

def unitB (u : LexicalUnit) : Bool :=
  decide (u.surface ≠ []) && closedB ['/', '$'] u.surface && u.analyses.all analysisB &&
    (match u.analyses with | [] => true | a :: _ => decide (a.text.head? ≠ some '*'))

theorem unitB_sound (u : LexicalUnit) (h : unitB u = true) : u.wf := by
  simp only [unitB, Bool.and_eq_true, decide_eq_true_eq, List.all_eq_true] at h
  refine ⟨h.1.1.1, closedB_sound _ _ h.1.1.2, fun a ha => analysisB_sound a (h.1.2 a ha), fun a ha => ?_⟩
  cases hu : u.analyses with
  | nil => simp [hu] at ha
  | cons b bs =>
    rw [hu] at ha h
    simp at ha
    subst ha
    simpa using h.2

/-- `take# out` with two analyses, one of them of two morphemes with an escaped character. -/
def exUnit : LexicalUnit :=
  ⟨t!"takes out\\/it", [⟨[⟨t!"take# out", [t!"vblex", t!"pri"]⟩, ⟨t!"prp\\<rs", [t!"prn"]⟩]⟩, ⟨[⟨t!"take", [t!"n"]⟩]⟩]⟩
def exUnknown : LexicalUnit := ⟨t!"xyz", []⟩
def exStop : LexicalUnit := ⟨t!".", [⟨[⟨t!".", [t!"sent"]⟩]⟩]⟩

def exItems : List Item :=
  [.blank t!" a", .unit exUnit, .nul, .unit exUnknown, .blank t!"[<b>^$]", .unit exStop, .blank t!"\n", .nul, .unit exStop]

theorem exItems_wf : ∀ i ∈ exItems, i.wf := by
  intro i hi
  simp only [exItems, List.mem_cons, List.not_mem_nil, or_false] at hi
  rcases hi with rfl | rfl | rfl | rfl | rfl | rfl | rfl | rfl | rfl
  · exact .chr (by decide) (by decide) (by decide) (by decide) (.chr (by decide) (by decide) (by decide) (by decide) .nil)
  · exact unitB_sound _ (by decide)
  · trivial
  · exact unitB_sound _ (by decide)
  · exact BlankText.block (b := t!"<b>^$") (t := []) (closedB_sound _ _ (by decide)) .nil
  · exact unitB_sound _ (by decide)
  · exact .chr (by decide) (by decide) (by decide) (by decide) .nil
  · trivial
  · exact unitB_sound _ (by decide)

/-- The text of the stream, and what the unigram tagger makes of it with an empty model and `-p -f -m`. -/
example : render exItems =
    t!" a^takes out\\/it/take# out<vblex><pri>+prp\\<rs<prn>/take<n>$" ++ '\x00' ::
    t!"^xyz/*xyz$[<b>^$]^./.<sent>$\n" ++ '\x00' :: t!"^./.<sent>$" := by decide +kernel

example : unigramTag ⟨true, true, true⟩ (score .one []) gtQ (render exItems) =
    .ok (t!" a^=takes out\\/it/take# out<vblex><pri>+prp\\<rs<prn>/take<n>$^xyz/*xyz$[<b>^$]^./.<sent>$\n^./.<sent>$") := by
  rw [C53_unigram_stream _ _ _ _ exItems_wf]
  decide +kernel

/-- `tagSentence` that always takes the last analysis. -/
def lastS (us : List LexicalUnit) : List (Option Analysis) := us.map (fun u => u.analyses.getLast?)

theorem lastS_fits (us : List LexicalUnit) : Fits us (lastS us) := by
  induction us with
  | nil => exact .nil
  | cons u us ih => exact .cons (fun a h => List.mem_of_getLast? h) ih

example : sentenceTag {} false lastS (render exItems) =
    .ok (t!" a^take<n>$^*xyz$[<b>^$]^.<sent>$\n" ++ '\x00' :: t!"^.<sent>$") := by
  rw [C54_sentence_stream _ _ _ lastS_fits _ exItems_wf]
  decide +kernel

/-- The sentences: the NUL directly after the first unit does not end one. -/
example : sentences false [] false exItems = [[exUnit, exUnknown, exStop], [], [exStop], []] := by decide +kernel

/-- A corpus with a known ambiguity, for `C26_counts`. -/
def exCorpus : List Item := [.unit exUnit, .blank t!" ", .unit exStop, .unit exUnit]

theorem exCorpus_wf : ∀ i ∈ exCorpus, i.wf := by
  intro i hi
  simp only [exCorpus, List.mem_cons, List.not_mem_nil, or_false] at hi
  rcases hi with rfl | rfl | rfl | rfl
  · exact unitB_sound _ (by decide)
  · exact .chr (by decide) (by decide) (by decide) (by decide) .nil
  · exact unitB_sound _ (by decide)
  · exact unitB_sound _ (by decide)

example : Item.nul ∉ exCorpus ∧ (∀ u ∈ units exCorpus, u.analyses ≠ []) ∧
    weight .one (.m1 ⟨[⟨t!"take", [t!"n"]⟩]⟩) (units exCorpus) = 1 :=
  ⟨by decide, by decide, by decide +kernel⟩

/-- Training stops silently at a NUL that is not directly after a unit: the second unit is not learnt. -/
theorem C26_nul_stops :
    train .one (render [.unit exStop, .blank t!"\n", .nul, .unit exUnit]) = train .one (render [.unit exStop]) := by
  decide +kernel

end Verif.Unigram
