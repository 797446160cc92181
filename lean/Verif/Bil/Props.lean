import Verif.Bil.Spec
import Verif.Chunk.Props
import Verif.Token.Props
/-!
# Words with translations (C47), and text no rule matches through the three programs (C48)
-/
namespace Verif.Bil
open Verif.Stream
open Verif.Transfer (TWord)
open Verif.Chunk (Piece)

theorem wbScan_atoms (b : List Atom) (h : ∀ a ∈ b, a.wf ['[', ']']) (p2 p1 : Char) (hp : ¬ (p1 = ']' ∧ p2 = ']')) (r : Text) :
    wbScan p2 p1 (renderAtoms b ++ ']' :: ']' :: '^' :: r) = .ok (renderAtoms b ++ [']', ']'], r) := by
  induction b generalizing p2 p1 with
  | nil =>
    rw [renderAtoms_nil, List.nil_append]
    rw [wbScan.eq_def]; simp only [Char.reduceEq, if_false, false_and]
    rw [wbScan.eq_def]; simp only [Char.reduceEq, if_false, false_and]
    rw [wbScan.eq_def]; simp
  | cons a as ih =>
    have ha := h a (by simp)
    have ih := ih (fun x hx => h x (by simp [hx]))
    cases a with
    | esc c => rw [wbScan.eq_def]; simp [Atom.render, ih '\\' c (by simp)]
    | lit c =>
      obtain ⟨h1, _, h3⟩ := ha
      simp only [List.mem_cons, List.not_mem_nil, or_false, not_or] at h3
      have hc : ¬ (c = '^' ∧ p1 = ']' ∧ p2 = ']') := fun h => hp h.2
      rw [wbScan.eq_def]; simp [Atom.render, h1, hc, ih p1 c (by simp [h3])]

/-! ## Rules -/

theorem addTo_addTo (k : Nat) (w : TWord) (s t : Text) : addTo k (addTo k w s) t = addTo k w (s ++ t) := by
  unfold addTo
  by_cases h0 : k = 0
  · simp [h0]
  · by_cases h1 : k = 1
    · simp [h1]
    · simp [h0, h1]

theorem parseRule_tag (n : Nat) (k : Nat) (w : TWord) (t r : Text) (ht : ∀ c ∈ t, c ∉ ['>', '\\', '[']) (hn : (t ++ '>' :: r).length < n) :
    ∃ n', r.length < n' ∧ parseRule n k true w (t ++ '>' :: r) = parseRule n' k false (addTo k w (t ++ ['>'])) r := by
  induction t generalizing n w with
  | nil =>
    cases n with
    | zero => simp at hn
    | succ n => exact ⟨n, by simp at hn; omega, by simp [parseRule]⟩
  | cons c t ih =>
    have hc := ht c (by simp)
    simp only [List.mem_cons, List.not_mem_nil, or_false, not_or] at hc
    cases n with
    | zero => simp at hn
    | succ n =>
      obtain ⟨n', h1, h2⟩ := ih n (addTo k w [c]) (fun x hx => ht x (by simp [hx])) (by simp at hn ⊢; omega)
      refine ⟨n', h1, ?_⟩
      rw [List.cons_append, parseRule.eq_def]
      simp only [hc, if_false, Bool.true_eq_false, and_false, ite_self]
      rw [h2, addTo_addTo]
      rfl

theorem parseRule_piece (n : Nat) (k : Nat) (w : TWord) (p : Piece) (hp : PieceWf p) (r : Text) (hn : (p.render ++ r).length < n) :
    ∃ n', r.length < n' ∧ parseRule n k false w (p.render ++ r) = parseRule n' k false (addTo k w p.render) r := by
  have htag : ∀ t : Text, (∀ c ∈ t, c ∉ ['>', '\\', '[']) → ('<' :: (t ++ '>' :: r)).length < n →
      ∃ n', r.length < n' ∧ parseRule n k false w ('<' :: (t ++ '>' :: r)) = parseRule n' k false (addTo k w ('<' :: t ++ ['>'])) r := by
    intro t ht hn
    cases n with
    | zero => simp at hn
    | succ n =>
      obtain ⟨n', h1, h2⟩ := parseRule_tag n k (addTo k w ['<']) t r ht (by simp at hn ⊢; omega)
      refine ⟨n', h1, ?_⟩
      rw [parseRule.eq_def]
      simp only [Char.reduceEq, if_false, false_and, if_true]
      rw [h2, addTo_addTo]
      rfl
  cases p with
  | lit c =>
    simp only [PieceWf, List.mem_cons, List.not_mem_nil, or_false, not_or] at hp
    cases n with
    | zero => simp at hn
    | succ n =>
      refine ⟨n, by simp [Piece.render] at hn; omega, ?_⟩
      simp only [Piece.render, List.cons_append, List.nil_append]
      rw [parseRule.eq_def]
      simp only [hp, if_false, false_and, ite_self]
  | esc c =>
    cases n with
    | zero => simp at hn
    | succ n =>
      refine ⟨n, by simp [Piece.render] at hn; omega, ?_⟩
      simp [Piece.render, parseRule]
  | tag t => simpa [Piece.render] using htag t hp (by simpa [Piece.render] using hn)
  | ref t => simpa [Piece.render] using htag t hp (by simpa [Piece.render] using hn)

theorem parseRule_text (n : Nat) (k : Nat) (w : TWord) (ps : List Piece) (hp : ∀ p ∈ ps, PieceWf p) (r : Text) (hn : (text ps ++ r).length < n) :
    ∃ n', r.length < n' ∧ parseRule n k false w (text ps ++ r) = parseRule n' k false (addTo k w (text ps)) r := by
  induction ps generalizing n w with
  | nil => exact ⟨n, by simpa [text] using hn, by simp [text]; unfold addTo; cases w; simp⟩
  | cons p ps ih =>
    rw [show text (p :: ps) = p.render ++ text ps from rfl, List.append_assoc] at *
    obtain ⟨n1, h1, h2⟩ := parseRule_piece n k w p (hp p (by simp)) (text ps ++ r) hn
    obtain ⟨n2, h3, h4⟩ := ih n1 (addTo k w p.render) (fun x hx => hp x (by simp [hx])) h1
    exact ⟨n2, h3, by rw [h2, h4, addTo_addTo]⟩

theorem parseRule_targets (n : Nat) (k : Nat) (w : TWord) (ts : List (List Piece)) (hp : ∀ t ∈ ts, ∀ p ∈ t, PieceWf p)
    (hn : (ts.flatMap fun t => '/' :: text t).length < n) :
    parseRule n k false w (ts.flatMap fun t => '/' :: text t) =
      .ok (ts.foldl (fun (x : Nat × TWord) t => (x.1 + 1, addTo (x.1 + 1) { x.2 with ref := [] } (text t))) (k, w)).2 := by
  induction ts generalizing n k w with
  | nil => cases n <;> simp [parseRule]
  | cons t ts ih =>
    cases n with
    | zero => simp at hn
    | succ n =>
      rw [List.flatMap_cons, List.cons_append] at *
      rw [parseRule.eq_def]
      simp only [Char.reduceEq, if_false, and_self, if_true]
      obtain ⟨n1, h1, h2⟩ := parseRule_text n (k + 1) { w with ref := [] } t (hp t (by simp)) (ts.flatMap fun t => '/' :: text t)
        (by simp at hn ⊢; omega)
      rw [h2, ih n1 (k + 1) _ (fun x hx => hp x (by simp [hx])) h1]
      rfl

theorem fold_ref (ts : List (List Piece)) (k : Nat) (hk : 1 ≤ k) (w : TWord) (hr : k = 1 → w.ref = []) :
    (ts.foldl (fun (x : Nat × TWord) t => (x.1 + 1, addTo (x.1 + 1) { x.2 with ref := [] } (text t))) (k, w)).2 =
      { w with ref := match ts.getLast? with | none => w.ref | some t => text t } := by
  induction ts generalizing k w with
  | nil => rfl
  | cons t ts ih =>
    rw [List.foldl_cons, ih (k + 1) (by omega) _ (by omega)]
    have e : addTo (k + 1) { w with ref := [] } (text t) = { w with ref := text t } := by
      unfold addTo; rw [if_neg (by omega), if_neg (by omega)]; simp
    simp only [e]
    cases ts with
    | nil => simp
    | cons t2 ts =>
      obtain ⟨z, hz⟩ : ∃ z, (t2 :: ts).getLast? = some z := ⟨_, List.getLast?_eq_some_getLast (by simp)⟩
      rw [List.getLast?_cons_cons, hz]

theorem fold_targets (x : Unit) (w : TWord) (hw : w.tgt = [] ∧ w.ref = []) :
    (x.targets.foldl (fun (x : Nat × TWord) t => (x.1 + 1, addTo (x.1 + 1) { x.2 with ref := [] } (text t))) (0, w)).2 =
      { w with tgt := text x.target, ref := text x.reference } := by
  unfold Unit.target Unit.reference
  cases x.targets with
  | nil => obtain ⟨h1, h2⟩ := hw; cases w; simp_all [text]
  | cons t ts =>
    rw [List.foldl_cons, fold_ref ts _ (by simp) _ (by simp [addTo])]
    simp only [addTo, Nat.zero_add, Nat.one_ne_zero, if_false, if_true, hw.1, List.nil_append, List.head?_cons, Option.getD_some, List.tail_cons]
    cases ts.getLast? <;> simp [text]

/-- **C47** (rules).  The word-bound blank, the source, the first translation and the last of the other translations are what a
rule gets of a word; characters that are escaped, and a `/` inside a tag, delimit nothing. -/
theorem C47_rule (x : Unit) (h : x.wf) : ruleWord x.token = .ok (TWord.new (text x.source) (text x.target) (text x.reference) x.wbText) := by
  have key : ∀ n w, (text x.source ++ x.targets.flatMap fun t => '/' :: text t).length < n → w.tgt = [] ∧ w.ref = [] →
      parseRule n 0 false w (text x.source ++ x.targets.flatMap fun t => '/' :: text t) =
        .ok { w with src := w.src ++ text x.source, tgt := text x.target, ref := text x.reference } := by
    intro n w hn hw
    obtain ⟨n1, h1, h2⟩ := parseRule_text n 0 w x.source h.source _ hn
    rw [h2, parseRule_targets n1 0 _ x.targets h.targets h1, fold_targets x _ (by simpa [addTo] using hw)]
    simp [addTo]
  unfold ruleWord Unit.token Unit.body Unit.wbText
  cases hb : x.wb with
  | none => rw [key _ _ (Nat.lt_succ_self _) ⟨rfl, rfl⟩]; simp [TWord.new]
  | some b =>
    have hs := fun r => wbScan_atoms b (h.wb b hb) '[' '[' (by simp) r
    simp only [List.cons_append, List.append_assoc, List.nil_append]
    rw [parseRule.eq_def]
    simp only [Char.reduceEq, if_false, if_true, List.head?_cons]
    have hs2 : ∀ r, wbScan '[' '[' ('[' :: (renderAtoms b ++ ']' :: ']' :: '^' :: r)) = .ok ('[' :: (renderAtoms b ++ [']', ']']), r) := by
      intro r
      rw [wbScan.eq_def]
      simp [hs]
    rw [hs2]
    simp only [Outcome.bind]
    rw [key _ _ (by simp; omega) ⟨rfl, rfl⟩]
    simp [TWord.new]

/-! ## No rule -/

theorem tagScan_plain (t r : Text) (ht : ∀ c ∈ t, c ∉ ['>', '\\', '[']) : tagScan (t ++ '>' :: r) = .ok (t, '>' :: r) := by
  induction t with
  | nil => rw [List.nil_append, tagScan.eq_def]; simp
  | cons c t ih =>
    have hc := ht c (by simp)
    simp only [List.mem_cons, List.not_mem_nil, or_false, not_or] at hc
    rw [List.cons_append, tagScan.eq_def]
    simp [hc, ih (fun x hx => ht x (by simp [hx]))]

theorem parseDefault_piece (n : Nat) (k : Nat) (cur : Text) (w : TWord) (p : Piece) (hp : PieceWf p) (r : Text) (hn : (p.render ++ r).length < n) :
    ∃ n', r.length < n' ∧ parseDefault n k cur w (p.render ++ r) = parseDefault n' k (cur ++ p.render) w r := by
  have htag : ∀ t : Text, (∀ c ∈ t, c ∉ ['>', '\\', '[']) → ('<' :: (t ++ '>' :: r)).length < n →
      ∃ n', r.length < n' ∧ parseDefault n k cur w ('<' :: (t ++ '>' :: r)) = parseDefault n' k (cur ++ ('<' :: t ++ ['>'])) w r := by
    intro t ht hn
    cases n with
    | zero => simp at hn
    | succ n =>
      refine ⟨n, by simp at hn; omega, ?_⟩
      have : tagScan ('<' :: (t ++ '>' :: r)) = .ok ('<' :: t, '>' :: r) := by
        rw [tagScan.eq_def]; simp [tagScan_plain t r ht]
      rw [parseDefault.eq_def]
      simp only [Char.reduceEq, if_false, if_true, this, Outcome.bind]
      simp
  cases p with
  | lit c =>
    simp only [PieceWf, List.mem_cons, List.not_mem_nil, or_false, not_or] at hp
    cases n with
    | zero => simp at hn
    | succ n =>
      refine ⟨n, by simp [Piece.render] at hn; omega, ?_⟩
      simp only [Piece.render, List.cons_append, List.nil_append]
      rw [parseDefault.eq_def]
      simp only [hp, if_false]
  | esc c =>
    cases n with
    | zero => simp at hn
    | succ n =>
      refine ⟨n, by simp [Piece.render] at hn; omega, ?_⟩
      simp [Piece.render, parseDefault]
  | tag t => simpa [Piece.render] using htag t hp (by simpa [Piece.render] using hn)
  | ref t => simpa [Piece.render] using htag t hp (by simpa [Piece.render] using hn)

theorem parseDefault_text (n : Nat) (k : Nat) (cur : Text) (w : TWord) (ps : List Piece) (hp : ∀ p ∈ ps, PieceWf p) (r : Text)
    (hn : (text ps ++ r).length < n) :
    ∃ n', r.length < n' ∧ parseDefault n k cur w (text ps ++ r) = parseDefault n' k (cur ++ text ps) w r := by
  induction ps generalizing n cur with
  | nil => exact ⟨n, by simpa [text] using hn, by simp [text]⟩
  | cons p ps ih =>
    rw [show text (p :: ps) = p.render ++ text ps from rfl, List.append_assoc] at *
    obtain ⟨n1, h1, h2⟩ := parseDefault_piece n k cur w p (hp p (by simp)) (text ps ++ r) hn
    obtain ⟨n2, h3, h4⟩ := ih n1 (cur ++ p.render) (fun x hx => hp x (by simp [hx])) h1
    exact ⟨n2, h3, by rw [h2, h4, List.append_assoc]⟩

/-- From the second translation on only the reference changes. -/
theorem parseDefault_more (n : Nat) (k : Nat) (hk : 2 ≤ k) (cur : Text) (w : TWord) (ts : List (List Piece)) (hp : ∀ t ∈ ts, ∀ p ∈ t, PieceWf p)
    (hn : (ts.flatMap fun t => '/' :: text t).length < n) :
    ∃ ref, parseDefault n k cur w (ts.flatMap fun t => '/' :: text t) = .ok { w with ref := ref } := by
  have hk0 : k ≠ 0 := by omega
  have hk1 : k ≠ 1 := by omega
  induction ts generalizing n k w cur with
  | nil =>
    cases n with
    | zero => simp at hn
    | succ n =>
      by_cases hc : cur = []
      · exact ⟨w.ref, by simp [parseDefault, hc]⟩
      · exact ⟨cur, by simp [parseDefault, hc, swapIn, hk0, hk1]⟩
  | cons t ts ih =>
    cases n with
    | zero => simp at hn
    | succ n =>
      rw [List.flatMap_cons, List.cons_append] at *
      obtain ⟨n1, h1, h2⟩ := parseDefault_text n (k + 1) (swapIn k w cur).2 (swapIn k w cur).1 t (hp t (by simp)) (ts.flatMap fun t => '/' :: text t)
        (by simp at hn ⊢; omega)
      obtain ⟨ref, h3⟩ := ih n1 (k + 1) (by omega) ((swapIn k w cur).2 ++ text t) (swapIn k w cur).1 (fun x hx => hp x (by simp [hx])) h1
        (by omega) (by omega)
      refine ⟨ref, ?_⟩
      rw [parseDefault.eq_def]
      simp only [Char.reduceEq, if_false, if_true]
      rw [h2, h3]
      simp [swapIn, hk0, hk1]

theorem parseDefault_body (x : Unit) (h : x.wf) (n : Nat) (w : TWord) (hn : x.body.length < n) (hw : w.src = [] ∧ w.tgt = []) :
    ∃ w', parseDefault n 0 [] w x.body = .ok w' ∧ w'.tgt = text x.target ∧ w'.wb = w.wb := by
  unfold Unit.body at hn ⊢
  obtain ⟨n1, h1, h2⟩ := parseDefault_text n 0 [] w x.source h.source _ hn
  rw [h2]
  have ht := h.targets
  unfold Unit.target
  cases hts : x.targets with
  | nil =>
    rw [hts] at h1
    cases n1 with
    | zero => simp at h1
    | succ n1 =>
      by_cases hc : [] ++ text x.source = []
      · exact ⟨_, by rw [List.flatMap_nil, parseDefault, if_pos hc], by simp [text, hw.2], rfl⟩
      · exact ⟨_, by rw [List.flatMap_nil, parseDefault, if_neg hc], by simp [swapIn, text, hw.2], by simp [swapIn]⟩
  | cons t ts =>
    rw [hts] at h1 ht
    rw [List.flatMap_cons, List.cons_append] at h1 ⊢
    cases n1 with
    | zero => simp at h1
    | succ n1 =>
      obtain ⟨n2, h3, h4⟩ := parseDefault_text n1 1 (swapIn 0 w ([] ++ text x.source)).2 (swapIn 0 w ([] ++ text x.source)).1 t (ht t (by simp))
        (ts.flatMap fun t => '/' :: text t) (by simp at h1 ⊢; omega)
      rw [parseDefault.eq_def]
      simp only [Char.reduceEq, if_false, if_true, Nat.zero_add]
      rw [h4]
      simp only [swapIn, if_true, hw.1, List.nil_append]
      cases ts with
      | nil =>
        cases n2 with
        | zero => simp at h3
        | succ n2 =>
          by_cases hc : text t = []
          · refine ⟨_, by rw [List.flatMap_nil, parseDefault, if_pos hc], ?_, ?_⟩ <;> simp [hc, hw.2]
          · exact ⟨_, by rw [List.flatMap_nil, parseDefault, if_neg hc], by simp [swapIn], by simp [swapIn]⟩
      | cons t2 ts =>
        rw [List.flatMap_cons, List.cons_append] at h3 ⊢
        cases n2 with
        | zero => simp at h3
        | succ n2 =>
          rw [parseDefault.eq_def]
          simp only [Char.reduceEq, if_false, if_true]
          obtain ⟨n3, h5, h6⟩ := parseDefault_text n2 2 (swapIn 1 { w with ref := [], src := text x.source } (text t)).2
            (swapIn 1 { w with ref := [], src := text x.source } (text t)).1 t2 (ht t2 (by simp))
            (ts.flatMap fun t => '/' :: text t) (by simp at h3 ⊢; omega)
          obtain ⟨ref, h7⟩ := parseDefault_more n3 2 (by omega) ((swapIn 1 { w with ref := [], src := text x.source } (text t)).2 ++ text t2)
            (swapIn 1 { w with ref := [], src := text x.source } (text t)).1 ts (fun y hy => ht y (by simp [hy])) h5
          refine ⟨_, by rw [h6, h7], ?_, ?_⟩ <;> simp [swapIn]

theorem parseDefault_eq (x : Unit) (h : x.wf) :
    ∃ w, parseDefault (x.token.length + 1) 0 [] (TWord.new [] [] [] []) x.token = .ok w ∧ w.tgt = text x.target ∧ w.wb = x.wbText := by
  unfold Unit.token Unit.wbText
  cases hb : x.wb with
  | none => exact parseDefault_body x h _ _ (Nat.lt_succ_self _) ⟨rfl, rfl⟩
  | some b =>
    have hs := fun r => wbScan_atoms b (h.wb b hb) '[' '[' (by simp) r
    simp only [List.cons_append, List.append_assoc, List.nil_append]
    rw [parseDefault.eq_def]
    simp only [Char.reduceEq, if_false, if_true, List.head?_cons]
    have hs2 : ∀ r, wbScan '[' '[' ('[' :: (renderAtoms b ++ ']' :: ']' :: '^' :: r)) = .ok ('[' :: (renderAtoms b ++ [']', ']']), r) := by
      intro r
      rw [wbScan.eq_def]
      simp [hs]
    rw [hs2]
    simp only [Outcome.bind]
    obtain ⟨w, h1, h2, h3⟩ := parseDefault_body x h (('[' :: '[' :: (renderAtoms b ++ ']' :: ']' :: '^' :: x.body)).length)
      { TWord.new [] [] [] [] with wb := '[' :: '[' :: (renderAtoms b ++ [']', ']']) } (by simp; omega) ⟨rfl, rfl⟩
    exact ⟨w, h1, h2, by rw [h3]⟩

/-- **C47** (default action).  A word no rule matches is written as the first translation with the word-bound blank, in a
chunk of its own. -/
theorem C47_default (x : Unit) (h : x.wf) (ht : text x.target ≠ []) :
    defaultOut false x.token = .ok
      ((if (text x.target).head? = some '*' then "^unknown<unknown>{".toList else "^default<default>{".toList) ++
        x.wbText ++ '^' :: text x.target ++ "$}$".toList) := by
  obtain ⟨w, h1, h2, h3⟩ := parseDefault_eq x h
  simp only [defaultOut, h1, Outcome.map_ok, h2, h3, if_neg ht, Bool.false_eq_true, if_false]

theorem C47_default_lu (x : Unit) (h : x.wf) (ht : text x.target ≠ []) (hb : (text x.target).head? ≠ some '[') :
    defaultOut true x.token = .ok (x.wbText ++ '^' :: text x.target ++ ['$']) := by
  obtain ⟨w, h1, h2, h3⟩ := parseDefault_eq x h
  simp only [defaultOut, h1, Outcome.map_ok, h2, h3, if_neg ht, if_true, if_pos (Or.inl hb)]
  simp

/-! ## The pattern automaton -/

theorem wbSkip_atoms (b : List Atom) (h : ∀ a ∈ b, a.wf ['[', ']']) (i : Nat) (hi : 2 ≤ i) (p2 p1 : Char) (hp : ¬ (p1 = ']' ∧ p2 = ']')) (r : Text) :
    wbSkip i p2 p1 (renderAtoms b ++ ']' :: ']' :: '^' :: r) = .ok r := by
  induction b generalizing i p2 p1 with
  | nil =>
    rw [renderAtoms_nil, List.nil_append]
    rw [wbSkip.eq_def]; simp only [Char.reduceEq, if_false, false_and, and_false]
    rw [wbSkip.eq_def]; simp only [Char.reduceEq, if_false, false_and, and_false]
    rw [wbSkip.eq_def]; simp only [Char.reduceEq, if_false, and_self, and_true]
    rw [if_pos (by omega)]
  | cons a as ih =>
    have ha := h a (by simp)
    have ih := ih (fun x hx => h x (by simp [hx]))
    cases a with
    | esc c => rw [wbSkip.eq_def]; simp [Atom.render, ih (i + 2) (by omega) '\\' c (by simp)]
    | lit c =>
      obtain ⟨h1, _, h3⟩ := ha
      simp only [List.mem_cons, List.not_mem_nil, or_false, not_or] at h3
      have hc : ¬ (4 ≤ i ∧ c = '^' ∧ p1 = ']' ∧ p2 = ']') := fun h => hp h.2.2
      rw [wbSkip.eq_def]; simp [Atom.render, h1, hc, ih (i + 1) (by omega) p1 c (by simp [h3])]

theorem tagEnd_plain (t r : Text) (ht : ∀ c ∈ t, c ∉ ['>', '\\', '[']) : tagEnd (t ++ '>' :: r) = some (t ++ ['>'], r) := by
  induction t with
  | nil => rw [List.nil_append, tagEnd.eq_def]; simp
  | cons c t ih =>
    have hc := ht c (by simp)
    simp only [List.mem_cons, List.not_mem_nil, or_false, not_or] at hc
    rw [List.cons_append, tagEnd.eq_def]
    simp [hc, ih (fun x hx => ht x (by simp [hx]))]

theorem steps_pieces (lower : Char → Char) (n i : Nat) (ps : List Piece) (hp : ∀ p ∈ ps, PieceWf p) (r : Text) (hn : (text ps ++ r).length < n)
    (hr : r = [] ∨ r.head? = some '/') : steps lower n i (text ps ++ r) = .ok (ps.map (pieceStep lower)) := by
  induction ps generalizing n i with
  | nil =>
    rcases hr with rfl | hr
    · cases n <;> simp [text, steps]
    · obtain ⟨r', rfl⟩ : ∃ r', r = '/' :: r' := by
        cases r with
        | nil => simp at hr
        | cons c r => simp at hr; exact ⟨r, by rw [hr]⟩
      cases n <;> simp [text, steps]
  | cons p ps ih =>
    rw [show text (p :: ps) = p.render ++ text ps from rfl, List.append_assoc] at *
    have hp1 := hp p (by simp)
    have ih := fun n i => ih n i (fun x hx => hp x (by simp [hx]))
    cases n with
    | zero => simp at hn
    | succ n =>
      have htag : ∀ t : Text, (∀ c ∈ t, c ∉ ['>', '\\', '[']) → ('<' :: (t ++ '>' :: (text ps ++ r))).length < n + 1 →
          steps lower (n + 1) i ('<' :: (t ++ '>' :: (text ps ++ r))) = .ok (.tag (Chunk.tagText t) :: ps.map (pieceStep lower)) := by
        intro t ht hn
        rw [steps.eq_def]
        simp only [Char.reduceEq, if_false, if_true, tagEnd_plain t _ ht]
        rw [ih _ _ (by simp at hn ⊢; omega)]
        simp [Chunk.tagText]
      cases p with
      | lit c =>
        simp only [PieceWf, List.mem_cons, List.not_mem_nil, or_false, not_or] at hp1
        simp only [Piece.render, List.cons_append, List.nil_append]
        rw [steps.eq_def]
        simp only [hp1, if_false]
        rw [ih _ _ (by simp [Piece.render] at hn ⊢; omega)]
        rfl
      | esc c =>
        simp only [Piece.render, List.cons_append, List.nil_append]
        rw [steps.eq_def]
        simp only [if_true]
        rw [ih _ _ (by simp [Piece.render] at hn ⊢; omega)]
        rfl
      | tag t => simpa [Piece.render, pieceStep] using htag t hp1 (by simpa [Piece.render] using hn)
      | ref t => simpa [Piece.render, pieceStep] using htag t hp1 (by simpa [Piece.render] using hn)

/-- **C47** (patterns).  The pattern automaton is fed with the source only: its characters in lower case and its tags, whatever the
translations and the word-bound blank are. -/
theorem C47_pattern (lower : Char → Char) (x : Unit) (h : x.wf) :
    steps lower (x.token.length + 1) 0 x.token = .ok (x.source.map (pieceStep lower)) := by
  have hr : ∀ ts : List (List Piece), (ts.flatMap fun t => '/' :: text t) = [] ∨ (ts.flatMap fun t => '/' :: text t).head? = some '/' := by
    intro ts; cases ts <;> simp
  unfold Unit.token Unit.wbText
  cases hb : x.wb with
  | none => exact steps_pieces lower _ _ _ h.source _ (Nat.lt_succ_self _) (hr _)
  | some b =>
    simp only [List.cons_append, List.append_assoc, List.nil_append]
    rw [steps.eq_def]
    simp only [Char.reduceEq, if_false, if_true, List.head?_cons]
    have hs2 : ∀ r, wbSkip 1 '[' '[' ('[' :: (renderAtoms b ++ ']' :: ']' :: '^' :: r)) = .ok r := by
      intro r
      rw [wbSkip.eq_def]
      simp [wbSkip_atoms b (h.wb b hb) 2 (by omega) '[' '[' (by simp)]
    rw [Nat.zero_add, hs2]
    simp only [Outcome.bind]
    exact steps_pieces lower _ _ _ h.source _ (by simp [Unit.body]; omega) (hr _)

/-- `[[t:b]]^cat<n><a/b>/gat<n>/x\/y$` -/
def exUnit : Unit where
  wb := some ("t:b".toList.map .lit)
  source := "cat".toList.map .lit ++ [.tag "n".toList, .tag "a/b".toList]
  targets := ["gat".toList.map .lit ++ [.tag "n".toList], [.lit 'x', .esc '/', .lit 'y']]

theorem exUnit_wf : exUnit.wf where
  wb := by intro b hb; simp only [exUnit, Option.some.injEq] at hb; subst hb; decide +kernel
  source := by decide +kernel
  targets := by decide +kernel

example : exUnit.token = "[[t:b]]^cat<n><a/b>/gat<n>/x\\/y".toList := by decide +kernel
example : ruleWord exUnit.token = .ok (TWord.new "cat<n><a/b>".toList "gat<n>".toList "x\\/y".toList "[[t:b]]".toList) := by
  rw [C47_rule exUnit exUnit_wf]; decide +kernel
example : defaultOut false exUnit.token = .ok "^default<default>{[[t:b]]^gat<n>$}$".toList := by
  rw [C47_default exUnit exUnit_wf (by decide +kernel)]; decide +kernel
example : steps Char.toLower (exUnit.token.length + 1) 0 exUnit.token =
    .ok [.char 'c', .char 'a', .char 't', .tag "<n>".toList, .tag "<a/b>".toList] := by
  rw [C47_pattern _ exUnit exUnit_wf]; decide +kernel

end Verif.Bil
