import Verif.Coarse.Model
import Verif.Tagger.StreamSpec
/-!
# C94: the perceptron tagger and the HMM tagger agree on the coarse tag of an analysis

The class of the HMM tagger is `classOf` (Tagger/StreamSpec.lean): the recogniser run over the text of the analysis.
-/
namespace Verif.Coarse
open Verif.Unigram (Morpheme)
open Verif.Tagger

/-- The text of a morpheme in the stream. -/
def text (w : Morpheme) : Text := w.lemma ++ w.tags.flatMap angled

/-- A recogniser that has died stays dead, and is in no final state. -/
structure Lawful (m : PMatcher) : Prop where
  char : ∀ s c, m.dead s = true → m.dead (m.char s c) = true
  tag : ∀ s t, m.dead s = true → m.dead (m.tag s t) = true
  fin : ∀ s, m.dead s = true → m.fin s = none

/-- The lemma has no `<`, and the tags have neither `>` nor `\`. -/
structure Plain (w : Morpheme) : Prop where
  lemma_ : '<' ∉ w.lemma
  tags : ∀ t ∈ w.tags, '>' ∉ t ∧ '\\' ∉ t

/-- The HMM tagger with the same recogniser. -/
def cfgOf (d : Data) (keof : Nat) (pref : Text → Bool) : MCfg := { m := d.m, keof := keof, kundef := d.kundef, pref := pref }

theorem dead_lemma {m : PMatcher} (hl : Lawful m) : ∀ (r : Text) (s : m.S), m.dead s = true → m.dead (lemmaSteps m s r) = true
  | [], _, h => h
  | c :: r, s, h => dead_lemma hl r _ (hl.char s c h)

theorem dead_tags {d : Data} (hl : Lawful d.m) : ∀ (ts : List Text) (s : d.m.S), d.m.dead s = true → d.m.dead (tagSteps d s ts) = true
  | [], _, h => h
  | t :: ts, s, h => by
    simp only [tagSteps]
    apply dead_tags hl
    split
    · exact hl.tag s _ h
    · exact h

theorem takeTag_angled (t r : Text) (h1 : '>' ∉ t) (h2 : '\\' ∉ t) : takeTag (t ++ '>' :: r) = some (t ++ ['>'], r) := by
  induction t with
  | nil => simp [takeTag]
  | cons c t ih =>
    simp only [List.mem_cons, not_or] at h1 h2
    have hc : c ≠ '\\' := fun e => h2.1 e.symm
    have hg : c ≠ '>' := fun e => h1.1 e.symm
    rw [List.cons_append, takeTag.eq_4 _ _ (fun e _ => hc e) (fun _ _ e _ => hc e), if_neg hg, ih h1.2 h2.2]
    rfl

/-- The answer of a run: the class, or none if it died. -/
def answer (m : PMatcher) (o : Option m.S) : Option Nat := o.bind m.fin

theorem run_tags {d : Data} (hl : Lawful d.m) : ∀ (ts : List Text) (n : Nat) (s : d.m.S), (∀ t ∈ ts, '>' ∉ t ∧ '\\' ∉ t) →
    ((ts.filter fun t => d.known (angled t)).flatMap angled).length ≤ n →
    answer d.m (mrun d.m n s ((ts.filter fun t => d.known (angled t)).flatMap angled)) = d.m.fin (tagSteps d s ts)
  | [], n, s, _, _ => by
    cases n <;> rfl
  | t :: ts, n, s, hp, hn => by
    have ht := hp t (by simp)
    have hp' : ∀ t ∈ ts, '>' ∉ t ∧ '\\' ∉ t := fun t h => hp t (by simp [h])
    simp only [tagSteps]
    by_cases hk : d.known (angled t) = true
    · rw [List.filter_cons_of_pos (by simpa using hk)] at hn ⊢
      rw [if_pos hk]
      rw [List.flatMap_cons] at hn ⊢
      generalize hrest : (ts.filter fun t => d.known (angled t)).flatMap angled = rest at hn ⊢
      simp only [angled, List.cons_append, List.append_assoc, List.nil_append, List.length_cons, List.length_append] at hn ⊢
      cases n with
      | zero => omega
      | succ n =>
        rw [mrun, if_pos rfl, takeTag_angled t rest ht.1 ht.2]
        by_cases hd : d.m.dead (d.m.tag s ('<' :: (t ++ ['>']))) = true
        · simp only [if_pos hd]
          rw [hl.fin _ (dead_tags hl ts _ hd)]
          rfl
        · simp only [if_neg hd]
          rw [← hrest]
          exact run_tags hl ts n _ hp' (by rw [hrest]; omega)
    · rw [List.filter_cons_of_neg (by simpa using hk)] at hn ⊢
      rw [if_neg hk]
      exact run_tags hl ts n s hp' hn

theorem run_lemma {d : Data} (hl : Lawful d.m) (ts : List Text) (hp : ∀ t ∈ ts, '>' ∉ t ∧ '\\' ∉ t) : ∀ (r : Text) (n : Nat) (s : d.m.S), '<' ∉ r →
    (r ++ (ts.filter fun t => d.known (angled t)).flatMap angled).length ≤ n →
    answer d.m (mrun d.m n s (r ++ (ts.filter fun t => d.known (angled t)).flatMap angled)) = d.m.fin (tagSteps d (lemmaSteps d.m s r) ts)
  | [], n, s, _, hn => run_tags hl ts n s hp hn
  | c :: r, n, s, hr, hn => by
    simp only [List.mem_cons, not_or] at hr
    have hc : c ≠ '<' := fun e => hr.1 e.symm
    rw [List.cons_append] at hn ⊢
    cases n with
    | zero => simp at hn
    | succ n =>
      rw [mrun, if_neg hc]
      simp only [lemmaSteps]
      by_cases hd : d.m.dead (d.m.char s c) = true
      · rw [if_pos hd, hl.fin _ (dead_tags hl ts _ (dead_lemma hl r _ hd))]
        rfl
      · rw [if_neg hd]
        exact run_lemma hl ts hp r n _ hr.2 (by simpa using hn)

theorem class_answer (cfg : MCfg) (a : Text) : classOf cfg a = (answer cfg.m (mrun cfg.m a.length cfg.m.init a)).getD cfg.kundef := by
  unfold classOf answer
  cases mrun cfg.m a.length cfg.m.init a <;> rfl

/-- What the perceptron tagger finds is what the HMM tagger finds for the same analysis without the tags that no pattern names. -/
theorem C94_exact (d : Data) (keof : Nat) (pref : Text → Bool) (w : Morpheme) (hl : Lawful d.m) (hw : Plain w) :
    coarsen d w = match d.names[classOf (cfgOf d keof pref) (text ⟨w.lemma, w.tags.filter fun t => d.known (angled t)⟩)]? with
      | some x => .ok x
      | none => .ub := by
  rw [class_answer]
  have h := run_lemma (d := d) hl w.tags hw.tags w.lemma _ d.m.init hw.lemma_ (Nat.le_refl _)
  have h2 : answer (cfgOf d keof pref).m (mrun (cfgOf d keof pref).m (text ⟨w.lemma, w.tags.filter fun t => d.known (angled t)⟩).length
      (cfgOf d keof pref).m.init (text ⟨w.lemma, w.tags.filter fun t => d.known (angled t)⟩)) =
      d.m.fin (tagSteps d (lemmaSteps d.m d.m.init w.lemma) w.tags) := h
  rw [h2]
  rfl

/-- The coarse tag of the perceptron tagger is the name of the class of the HMM tagger, if the patterns know all tags of the analysis. -/
theorem C94_agree_partial (d : Data) (keof : Nat) (pref : Text → Bool) (w : Morpheme) (hl : Lawful d.m) (hw : Plain w)
    (hk : ∀ t ∈ w.tags, d.known (angled t) = true) (x : Text) (hx : d.names[classOf (cfgOf d keof pref) (text w)]? = some x) :
    coarsen d w = .ok x := by
  rw [C94_exact d keof pref w hl hw]
  have : w.tags.filter (fun t => d.known (angled t)) = w.tags := List.filter_eq_self.2 fun t h => by simpa using hk t h
  rw [this, hx]

/-- Every entry of the cache is what would be found. -/
def Sound (d : Data) (k : Cache) : Prop := ∀ e ∈ k, coarsen d e.1 = .ok e.2

theorem look_sound {d : Data} : ∀ {k : Cache}, Sound d k → ∀ {w : Morpheme} {x : Text}, look w k = some x → coarsen d w = .ok x
  | [], _, _, _, h => by simp [look] at h
  | e :: r, hs, w, x, h => by
    simp only [look] at h
    by_cases he : e.1 = w
    · rw [if_pos he] at h
      have := hs e (by simp)
      rw [he] at this
      simpa [← Option.some.inj h] using this
    · rw [if_neg he] at h
      exact look_sound (fun e' h' => hs e' (by simp [h'])) h

theorem ask_sound {d : Data} {k : Cache} (hs : Sound d k) (w : Morpheme) :
    (∃ x k', coarsen d w = .ok x ∧ ask d k w = .ok (x, k') ∧ Sound d k') ∨ (coarsen d w = .ub ∧ ask d k w = .ub) := by
  unfold ask
  cases h : look w k with
  | some x => exact .inl ⟨x, k, look_sound hs h, rfl, hs⟩
  | none =>
    have hc : (∃ x, coarsen d w = .ok x) ∨ coarsen d w = .ub := by
      unfold coarsen
      cases d.names[(d.m.fin (tagSteps d (lemmaSteps d.m d.m.init w.lemma) w.tags)).getD d.kundef]? with
      | some x => exact .inl ⟨x, rfl⟩
      | none => exact .inr rfl
    rcases hc with ⟨x, hx⟩ | hx
    · refine .inl ⟨x, (w, x) :: k, hx, by simp [hx, Outcome.bind], ?_⟩
      intro e he
      rcases List.mem_cons.1 he with rfl | he
      · exact hx
      · exact hs e he
    · exact .inr ⟨hx, by simp [hx, Outcome.bind]⟩

/-- The morphemes asked for. -/
def asked : List Call → List Morpheme
  | [] => []
  | .ask w :: cs => w :: asked cs
  | .clear :: cs => asked cs

/-- The coarse tags of several morphemes, each found anew. -/
def anew (d : Data) : List Morpheme → Outcome (List Text)
  | [] => .ok []
  | w :: ws => (coarsen d w).bind fun x => (anew d ws).bind fun ys => .ok (x :: ys)

theorem answers_sound (d : Data) : ∀ (cs : List Call) (k : Cache), Sound d k → answers d k cs = anew d (asked cs)
  | [], _, _ => rfl
  | .clear :: cs, _, _ => answers_sound d cs [] (fun _ h => by simp at h)
  | .ask w :: cs, k, hs => by
    simp only [answers, asked, anew]
    rcases ask_sound hs w with ⟨x, k', h1, h2, h3⟩ | ⟨h1, h2⟩
    · rw [h1, h2]
      simp only [Outcome.bind]
      rw [answers_sound d cs k' h3]
    · rw [h1, h2]
      rfl

/-- The cache is not seen: whatever was asked before and whenever it was emptied, each answer is what would be found without it. -/
theorem C94_cache (d : Data) (cs : List Call) : answers d [] cs = anew d (asked cs) :=
  answers_sound d cs [] (fun _ h => by simp at h)

/-- The ambiguity set of a word whose analyses have one morpheme each: the names of the classes that the HMM tagger has for the analyses, in their order. -/
theorem C94_ambgset_partial (d : Data) (keof : Nat) (pref : Text → Bool) (hl : Lawful d.m) : ∀ (ws : List Morpheme) (xs : List Text) (k : Cache), Sound d k →
    (∀ w ∈ ws, Plain w ∧ ∀ t ∈ w.tags, d.known (angled t) = true) →
    ws.map (fun w => d.names[classOf (cfgOf d keof pref) (text w)]?) = xs.map some →
    ∃ k', Sound d k' ∧ ambgset d k (ws.map fun w => [w]) = .ok (xs, k')
  | [], xs, k, hs, _, hx => by
    cases xs with
    | nil => exact ⟨k, hs, rfl⟩
    | cons => simp at hx
  | w :: ws, [], _, _, _, hx => by simp at hx
  | w :: ws, x :: xs, k, hs, hp, hx => by
    simp only [List.map_cons, List.cons.injEq] at hx
    have hw := hp w (by simp)
    have hc := C94_agree_partial d keof pref w hl hw.1 hw.2 x hx.1
    rcases ask_sound hs w with ⟨y, k', h1, h2, h3⟩ | ⟨h1, _⟩
    · rw [hc] at h1
      injection h1 with h1
      subst h1
      obtain ⟨k2, h4, h5⟩ := C94_ambgset_partial d keof pref hl ws xs k' h3 (fun v hv => hp v (by simp [hv])) hx.2
      refine ⟨k2, h4, ?_⟩
      simp only [List.map_cons, ambgset, joined, h2, Outcome.bind, h5]
    · rw [hc] at h1
      exact absurd h1 (by simp)

/-! ## Cases -/

/-- The patterns `n` and `n.pl` of a definition: the lemma, then the tags. -/
def exM : PMatcher where
  S := Nat
  init := 0
  char s _ := if s = 0 then 0 else 3
  tag s t := if s = 0 ∧ t = t!"<n>" then 1 else if s = 1 ∧ t = t!"<pl>" then 2 else 3
  dead s := decide (s = 3)
  fin s := if s = 1 then some 0 else if s = 2 then some 1 else none

def exD : Data := { m := exM, known := fun t => decide (t ∈ [t!"<n>", t!"<pl>"]), names := [t!"NOUN", t!"NOUNPL", t!"TAG_kUNDEF"], kundef := 2 }

theorem exM_lawful : Lawful exM where
  char s c h := by
    have : s = (3 : Nat) := by simpa [exM] using h
    subst this; rfl
  tag s t h := by
    have : s = (3 : Nat) := by simpa [exM] using h
    subst this; simp [exM]
  fin s h := by
    have : s = (3 : Nat) := by simpa [exM] using h
    subst this; rfl

/-- The hypotheses of `C94_agree_partial` are met. -/
example : coarsen exD ⟨t!"cat", [t!"n", t!"pl"]⟩ = .ok t!"NOUNPL" :=
  C94_agree_partial exD 9 (fun _ => false) ⟨t!"cat", [t!"n", t!"pl"]⟩ exM_lawful ⟨by decide, by decide⟩ (by decide) _ (by decide +kernel)

/-- Those of `C94_ambgset_partial` too. -/
example := C94_ambgset_partial exD 9 (fun _ => false) exM_lawful [⟨t!"cat", [t!"n", t!"pl"]⟩, ⟨t!"cat", [t!"pl"]⟩] [t!"NOUNPL", t!"TAG_kUNDEF"] []
  (fun _ h => by simp at h) (by intro w hw; simp only [List.mem_cons, List.not_mem_nil, or_false] at hw; rcases hw with rfl | rfl <;> exact ⟨⟨by decide, by decide⟩, by decide⟩)
  (by decide +kernel)

/-- A tag that no pattern names: the HMM tagger has no coarse tag for the analysis, the perceptron tagger takes it as if the tag were not there. -/
theorem C94_unknown_violation : Plain ⟨t!"cat", [t!"n", t!"acc"]⟩ ∧ classOf (cfgOf exD 9 fun _ => false) (text ⟨t!"cat", [t!"n", t!"acc"]⟩) = exD.kundef ∧
    coarsen exD ⟨t!"cat", [t!"n", t!"acc"]⟩ = .ok t!"NOUN" :=
  ⟨⟨by decide, by decide⟩, by decide +kernel, by decide +kernel⟩

/-- An escaped `<` in the lemma: the HMM tagger takes it for the beginning of a tag and finds no coarse tag, the perceptron tagger takes it for a character. -/
theorem C94_escape_violation : (∀ t ∈ [t!"n"], exD.known (angled t) = true) ∧ classOf (cfgOf exD 9 fun _ => false) (text ⟨t!"a\\<b", [t!"n"]⟩) = exD.kundef ∧
    coarsen exD ⟨t!"a\\<b", [t!"n"]⟩ = .ok t!"NOUN" :=
  ⟨by decide, by decide +kernel, by decide +kernel⟩

end Verif.Coarse
