/-
  C87: adapting a Word document.
-/
import Verif.Docx.Para

namespace Verif.Docx

open Spec

/-- ASCII letters, for the examples. -/
def ascii (c : Char) : Bool := c.isAlpha

theorem letters_ascii : Letters ascii := ⟨by decide, by decide, by decide⟩

/-! ### The whole document -/

/-- The adapted paragraph, or the old one. -/
def paraOf (al : Char → Bool) (inh : Bool) (kids : List Xml) : List Xml := (adaptPara al inh kids).getD kids

/-- The adapted node, or the old one. -/
def docOf (al : Char → Bool) (inh : Bool) (x : Xml) : Xml := (adapt al inh x).getD x

theorem adaptPara_some {al : Char → Bool} (hlet : Letters al) (inh : Bool) (kids : List Xml) :
    adaptPara al inh kids = some (paraOf al inh kids) := by
  obtain ⟨k, h, _⟩ := adaptPara_spec hlet inh kids
  simp [paraOf, h]

mutual
theorem adapt_some {al : Char → Bool} (hlet : Letters al) :
    ∀ (x : Xml) (inh : Bool), adapt al inh x = some (docOf al inh x)
  | .elem n sp kids, inh => by
    have ih := adaptL_some hlet kids (sp.getD inh)
    simp only [docOf, adapt, ih, Option.bind_some]
    by_cases hn : n = "p"
    · simp [hn, adaptPara_some hlet]
    · simp [hn]
  | .text _, _ => rfl
  | .cdata _, _ => rfl
  | .note _, _ => rfl
theorem adaptL_some {al : Char → Bool} (hlet : Letters al) :
    ∀ (xs : List Xml) (inh : Bool), adaptL al inh xs = some (xs.map (docOf al inh))
  | [], _ => rfl
  | x :: xs, inh => by
    have h1 := adapt_some hlet x inh
    have h2 := adaptL_some hlet xs inh
    simp only [adaptL, h1, h2, Option.bind_some, Option.map_some, List.map_cons]
end

theorem docOf_elem {al : Char → Bool} (hlet : Letters al) (inh : Bool) (n : String) (sp : Option Bool) (kids : List Xml) :
    docOf al inh (.elem n sp kids) =
      .elem n sp (if n = "p" then paraOf al (sp.getD inh) (kids.map (docOf al (sp.getD inh)))
        else kids.map (docOf al (sp.getD inh))) := by
  simp only [docOf, adapt, adaptL_some hlet, Option.bind_some]
  by_cases hn : n = "p"
  · have := adaptPara_some hlet (sp.getD inh) (kids.map (docOf al (sp.getD inh)))
    simp only [hn, if_true, this, Option.map_some, Option.getD_some]
  · simp [hn]

theorem isT_docOf {al : Char → Bool} (hlet : Letters al) (inh : Bool) (x : Xml) : isT (docOf al inh x) = isT x := by
  cases x with
  | elem n sp kids => rw [docOf_elem hlet]; rfl
  | text => rfl
  | cdata => rfl
  | note => rfl

theorem noRun_docOf {al : Char → Bool} (hlet : Letters al) (inh : Bool) {x : Xml} (h : NoRun x) :
    NoRun (docOf al inh x) := by
  intro sp' kids' he
  cases x with
  | elem n sp kids =>
    rw [docOf_elem hlet] at he
    injection he with h1 h2 h3
    subst h1
    simp only [show ("r" = "p") = False by simp, if_false] at h3
    subst h3
    have : ((kids.map (docOf al (sp.getD inh))).filter isT).length = (kids.filter isT).length := by
      rw [List.filter_map, List.length_map]
      congr 1
      apply List.filter_congr
      intro y _
      simp [isT_docOf hlet]
    rw [this]
    exact h sp kids rfl
  | text => exact absurd he (by simp [docOf, adapt])
  | cdata => exact absurd he (by simp [docOf, adapt])
  | note => exact absurd he (by simp [docOf, adapt])

theorem contentL_map {quiet : String → Bool} {inh : Bool} {f : Xml → Xml} {xs : List Xml}
    (h : ∀ x ∈ xs, content quiet inh (f x) = content quiet inh x) :
    contentL quiet inh (xs.map f) = contentL quiet inh xs := by
  induction xs with
  | nil => rfl
  | cons x xs ih =>
    simp only [List.map_cons, contentL]
    rw [h x (List.mem_cons_self ..), ih (fun y hy => h y (List.mem_cons_of_mem _ hy))]

/-- A simple run stays simple. -/
theorem simple_docOf {al : Char → Bool} (hlet : Letters al) {quiet : String → Bool} {inh : Bool} {n : String}
    {sp : Option Bool} {kids : List Xml}
    (ih : ∀ y ∈ kids, content quiet (sp.getD inh) (docOf al (sp.getD inh) y) = content quiet (sp.getD inh) y)
    (h : Simple quiet inh (.elem n sp kids)) : Simple quiet inh (docOf al inh (.elem n sp kids)) := by
  obtain ⟨sp', before, tsp, tk, after, he, htk, ho⟩ := h
  injection he with h1 h2 h3
  subst h1 h2 h3
  have ht : docOf al (sp.getD inh) (.elem "t" tsp tk) = .elem "t" tsp tk := by
    rw [docOf_elem hlet]
    rcases htk with rfl | ⟨s, rfl⟩
    · simp
    · simp [docOf, adapt]
  refine ⟨sp, before.map (docOf al (sp.getD inh)), tsp, tk, after.map (docOf al (sp.getD inh)), ?_, htk, ?_⟩
  · rw [docOf_elem hlet]
    simp [ht]
  · intro y hy
    rw [← List.map_append] at hy
    obtain ⟨z, hz, rfl⟩ := List.mem_map.1 hy
    refine ⟨by rw [isT_docOf hlet]; exact (ho z hz).1, ?_⟩
    rw [ih z ?_]
    · exact (ho z hz).2
    · rcases List.mem_append.1 hz with h | h
      · exact List.mem_append_left _ h
      · exact List.mem_append_right _ (List.mem_cons_of_mem _ h)

mutual
theorem docOf_content {al : Char → Bool} (hlet : Letters al) {quiet : String → Bool} (hq : quiet "r" = false) :
    ∀ (x : Xml) (inh : Bool), AllTidy quiet inh x →
      content quiet inh (docOf al inh x) = content quiet inh x ∧
      (Simple quiet inh x → Simple quiet inh (docOf al inh x))
  | .elem n sp kids, inh, h => by
    obtain ⟨h1, h2⟩ := h
    have ih := docOf_contentL hlet hq kids (sp.getD inh) h1
    refine ⟨?_, simple_docOf hlet (fun y hy => (ih y hy).1)⟩
    have hk := contentL_map (fun y hy => (ih y hy).1)
    have hn : n = "t" → ∀ b, shown b (kids.map (docOf al (sp.getD inh))) = shown b kids := by
      intro _ b
      have : rawText (kids.map (docOf al (sp.getD inh))) = rawText kids := by
        clear h1 h2 ih hk
        induction kids with
        | nil => rfl
        | cons y ys ihy =>
          cases y with
          | elem n' sp' kids' => rw [List.map_cons, docOf_elem hlet]; simpa [rawText] using ihy
          | text s => simpa [rawText, docOf, adapt] using ihy
          | cdata s => simpa [rawText, docOf, adapt] using ihy
          | note s => simpa [rawText, docOf, adapt] using ihy
      simp only [shown, this]
    rw [docOf_elem hlet]
    by_cases hp : n = "p"
    · subst hp
      obtain ⟨pre, mid, post, e, hpre, hpost, hmid⟩ := h2 rfl
      have htidy : Tidy quiet (sp.getD inh) (kids.map (docOf al (sp.getD inh))) := by
        refine ⟨pre.map (docOf al (sp.getD inh)), mid.map (docOf al (sp.getD inh)), post.map (docOf al (sp.getD inh)),
          by rw [e]; simp, ?_, ?_, ?_⟩
        · intro y hy
          obtain ⟨z, hz, rfl⟩ := List.mem_map.1 hy
          exact noRun_docOf hlet _ (hpre z hz)
        · intro y hy
          obtain ⟨z, hz, rfl⟩ := List.mem_map.1 hy
          exact noRun_docOf hlet _ (hpost z hz)
        · intro y hy
          obtain ⟨z, hz, rfl⟩ := List.mem_map.1 hy
          have hz' := ih z (by rw [e]; exact List.mem_append_left _ (List.mem_append_right _ hz))
          rcases hmid z hz with hs | ⟨hn, hc⟩
          · exact .inl (hz'.2 hs)
          · exact .inr ⟨noRun_docOf hlet _ hn, by rw [hz'.1]; exact hc⟩
      obtain ⟨ks, e1, e2⟩ := para_content hlet hq htidy
      have hpo : paraOf al (sp.getD inh) (kids.map (docOf al (sp.getD inh))) = ks := by simp [paraOf, e1]
      simp only [if_true, hpo, content, e2, hk]
      rfl
    · simp only [hp, if_false, content, hk]
      by_cases ht : n = "t"
      · simp only [ht, if_true, hn ht]
      · simp only [ht, if_false]
  | .text _, _, _ => ⟨rfl, fun h => h⟩
  | .cdata _, _, _ => ⟨rfl, fun h => h⟩
  | .note _, _, _ => ⟨rfl, fun h => h⟩
theorem docOf_contentL {al : Char → Bool} (hlet : Letters al) {quiet : String → Bool} (hq : quiet "r" = false) :
    ∀ (xs : List Xml) (inh : Bool), AllTidyL quiet inh xs → ∀ x ∈ xs,
      content quiet inh (docOf al inh x) = content quiet inh x ∧
      (Simple quiet inh x → Simple quiet inh (docOf al inh x))
  | [], _, _ => fun x hx => absurd hx (by simp)
  | y :: ys, inh, h => by
    have h1 := docOf_content hlet hq y inh h.1
    have h2 := docOf_contentL hlet hq ys inh h.2
    intro x hx
    rcases List.mem_cons.1 hx with rfl | hx
    · exact h1
    · exact h2 x hx
end

/-! ### The properties -/

/-- C87: the program comes to an end on every document, without reading outside its vectors. -/
theorem C87_total {al : Char → Bool} (hlet : Letters al) (inh : Bool) (d : Xml) :
    ∃ d', adapt al inh d = some d' := ⟨_, adapt_some hlet d inh⟩

/-- C87: the boundary between two runs is moved to the first place, at or behind it, that is not inside a
    word (nor in front of a hyphen or a dot that ends the text). -/
theorem C87_boundary {al : Char → Bool} (hlet : Letters al) (text : Text) (b : Nat) (h0 : 0 < b)
    (h1 : b < text.length) : FirstGood al text b (findBoundary al text b) :=
  findBoundary_spec hlet text b h0 h1

example : Letters ascii ∧ 0 < 2 ∧ 2 < t!"casa-museu".length ∧ findBoundary ascii t!"casa-museu i" 2 = 10 :=
  ⟨letters_ascii, by decide, by decide, by decide +kernel⟩

/-- C87: the ends of the runs.  `ts` are the texts of the runs of a paragraph.  Every run but the last ends
    where the first acceptable place at or behind its old end is; where nothing was before or behind the
    end, it stays. -/
theorem C87_ends {al : Char → Bool} (hlet : Letters al) (ts : List Text) (hne : ts ≠ []) :
    ∃ r, adjust al ts.flatten (ts.map List.length) = some r ∧
      (r.getD (ts.map List.length)).length = ts.length ∧
      (r.getD (ts.map List.length)).sum = ts.flatten.length ∧
      ∀ k, k + 1 < ts.length →
        let old := endOf (ts.map List.length) k
        let new := endOf (r.getD (ts.map List.length)) k
        (0 < old → old < ts.flatten.length → FirstGood al ts.flatten old new) ∧
        (old = 0 ∨ old = ts.flatten.length → new = old) := by
  obtain ⟨r, h1, h2, h3, h4, _⟩ := adjust_spec hlet (sum_lengths ts) (E := ts.map List.length) (by simpa using hne)
  refine ⟨r, h1, by simpa using h2, by rw [sum_lengths]; exact h3, ?_⟩
  intro k hk
  have := h4 k (by simpa using hk)
  refine ⟨fun a b => ?_, fun a => ?_⟩
  · rw [this]
    exact findBoundary_spec hlet _ _ a b
  · rw [this]
    rcases a with a | a
    · rw [a, findBoundary_zero]
    · rw [a, findBoundary_end]

theorem good_place {al : Char → Bool} (hlet : Letters al) {join : Text} {E L : List Nat} (hs : L.sum = join.length)
    (hends : ∀ k, k + 1 < L.length → endOf L k = findBoundary al join (endOf E k)) (hE : E.sum = join.length)
    (k : Nat) (h1 : join.take (L.take k).sum ≠ []) (h2 : join.drop (L.take k).sum ≠ []) :
    ¬ Bad al (join.take (L.take k).sum) (join.drop (L.take k).sum) := by
  have hlt : (L.take k).sum < join.length := by
    rcases Nat.lt_or_ge (L.take k).sum join.length with h | h
    · exact h
    · exact absurd (List.drop_eq_nil_of_le h) h2
  have hk0 : 0 < k := by
    rcases Nat.eq_zero_or_pos k with h | h
    · subst h; simp at h1
    · exact h
  have hkl : k < L.length := by
    rcases Nat.lt_or_ge k L.length with h | h
    · exact h
    · rw [List.take_of_length_le h] at hlt; omega
  rw [take_sum_done hk0] at h1 hlt ⊢
  have he := hends (k - 1) (by omega)
  have hpos : 0 < endOf L (k - 1) := by
    rcases Nat.eq_zero_or_pos (endOf L (k - 1)) with h | h
    · rw [h] at h1; simp at h1
    · exact h
  by_cases hb : 0 < endOf E (k - 1) ∧ endOf E (k - 1) < join.length
  · have hg := findBoundary_spec hlet join _ hb.1 hb.2
    rw [← he] at hg
    rcases hg.2.2.1 with h | h
    · omega
    · exact h
  · have hle := endOf_le_sum E (k - 1)
    have : endOf E (k - 1) = 0 ∨ endOf E (k - 1) = join.length := by omega
    rcases this with h | h
    · rw [h, findBoundary_zero] at he; omega
    · rw [h, findBoundary_end] at he; omega

/-- C87: in an adapted paragraph no boundary between two runs is inside a word (nor dangling), and the text of the runs
    taken together is the old one. -/
theorem C87_legal {al : Char → Bool} (hlet : Letters al) (inh : Bool) (kids : List Xml)
    (ho : ∀ x ∈ kids, OneText x) :
    ∃ kids', adaptPara al inh kids = some kids' ∧
      (texts inh kids').flatten = (texts inh kids).flatten ∧
      ∀ us vs, texts inh kids' = us ++ vs → us.flatten ≠ [] → vs.flatten ≠ [] →
        ¬ Bad al us.flatten vs.flatten := by
  rw [adaptPara_eq]
  by_cases he : (texts inh kids).isEmpty = true
  · refine ⟨kids, by rw [if_pos he], rfl, ?_⟩
    intro us vs h hu
    rw [List.isEmpty_iff] at he
    rw [he] at h
    have := h.symm
    simp at this
    rw [this.1] at hu
    simp at hu
  · rw [if_neg he]
    obtain ⟨r, h1, h2, h3, h4, _⟩ := adjust_spec hlet (sum_lengths (texts inh kids)) (texts_ne he)
    rw [h1]
    have hsum := sum_lengths (texts inh kids)
    have hz := stays_zero (al := al) hsum h2 h3 h4
    have hends : ∀ k, k + 1 < (r.getD ((texts inh kids).map List.length)).length →
        endOf (r.getD ((texts inh kids).map List.length)) k =
          findBoundary al (texts inh kids).flatten (endOf ((texts inh kids).map List.length) k) :=
      fun k hk => h4 k (by omega)
    have hg := good_place hlet (join := (texts inh kids).flatten) (by rw [h3, ← hsum]) hends hsum.symm
    have key : ∀ kids', (∀ us vs, texts inh kids' = us ++ vs → ∃ k,
        us.flatten = (texts inh kids).flatten.take ((r.getD ((texts inh kids).map List.length)).take k).sum ∧
        vs.flatten = (texts inh kids).flatten.drop ((r.getD ((texts inh kids).map List.length)).take k).sum) →
        ∀ us vs, texts inh kids' = us ++ vs → us.flatten ≠ [] → vs.flatten ≠ [] →
          ¬ Bad al us.flatten vs.flatten := by
      intro kids' hk us vs h hu hv
      obtain ⟨k, e1, e2⟩ := hk us vs h
      rw [e1] at hu ⊢
      rw [e2] at hv ⊢
      exact hg k hu hv
    cases r with
    | none =>
      refine ⟨kids, rfl, rfl, key kids ?_⟩
      intro us vs h
      refine ⟨us.length, ?_⟩
      have e := texts_split us vs
      simp only [Option.getD_none]
      rw [h, ← e]
      simp
    | some L =>
      have hr := rewrite_texts kids (texts inh kids).flatten L ho (by simpa using h2.symm)
        (fun k hk => hz k (by simp [hk]))
      refine ⟨_, rfl, ?_, key _ ?_⟩
      · show (texts inh (rewrite inh kids (texts inh kids).flatten L)).flatten = _
        rw [hr]
        exact pieces_flatten _ _ (by rw [hsum]; exact Nat.le_of_eq h3.symm)
      · intro us vs h
        have h : texts inh (rewrite inh kids (texts inh kids).flatten L) = us ++ vs := h
        rw [hr] at h
        obtain ⟨k, _, e1, e2⟩ := pieces_split L _ us vs (by rw [hsum]; exact h3.symm) h
        exact ⟨k, e1, e2⟩

/-- C87: a paragraph whose boundaries are acceptable is left as it is. -/
theorem C87_unchanged {al : Char → Bool} (hlet : Letters al) (inh : Bool) (kids : List Xml)
    (hg : ∀ us vs, texts inh kids = us ++ vs → us.flatten ≠ [] → vs.flatten ≠ [] →
      ¬ Bad al us.flatten vs.flatten) :
    adaptPara al inh kids = some kids := by
  rw [adaptPara_eq]
  by_cases he : (texts inh kids).isEmpty = true
  · rw [if_pos he]
  · rw [if_neg he]
    obtain ⟨r, h1, h2, h3, h4, h5⟩ := adjust_spec hlet (sum_lengths (texts inh kids)) (texts_ne he)
    rw [h1]
    cases r with
    | none => rfl
    | some L =>
      exfalso
      obtain ⟨k, hk, hlt⟩ := h5 (by simp)
      have hsum := sum_lengths (texts inh kids)
      have hle := endOf_le_sum ((texts inh kids).map List.length) k
      have hE : endOf ((texts inh kids).map List.length) k = ((texts inh kids).take (k + 1)).flatten.length := by
        simp [endOf, List.length_flatten, List.map_take]
      have hsp : (texts inh kids).take (k + 1) ++ (texts inh kids).drop (k + 1) = texts inh kids :=
        List.take_append_drop ..
      have hfl : (texts inh kids).flatten =
          ((texts inh kids).take (k + 1)).flatten ++ ((texts inh kids).drop (k + 1)).flatten := by
        rw [← List.flatten_append, hsp]
      have hpos : 0 < endOf ((texts inh kids).map List.length) k := by
        rcases Nat.eq_zero_or_pos (endOf ((texts inh kids).map List.length) k) with h | h
        · rw [h, findBoundary_zero] at hlt; omega
        · exact h
      have hlt2 : endOf ((texts inh kids).map List.length) k < (texts inh kids).flatten.length := by
        rcases Nat.lt_or_ge (endOf ((texts inh kids).map List.length) k) (texts inh kids).flatten.length with h | h
        · exact h
        · rw [show endOf ((texts inh kids).map List.length) k = (texts inh kids).flatten.length by omega,
            findBoundary_end] at hlt
          omega
      have hf := findBoundary_spec hlet (texts inh kids).flatten _ hpos hlt2
      have hbad := hf.2.2.2 _ (Nat.le_refl _) hlt
      rw [hE] at hbad hpos hlt2
      rw [hfl, List.take_left, List.drop_left] at hbad
      refine hg _ _ hsp.symm ?_ ?_ hbad
      · intro hc; rw [hc] at hpos; simp at hpos
      · intro hc; rw [hfl, hc] at hlt2; simp at hlt2

/-- C87, as far as it holds: a document whose paragraphs are tidy (in each of them, nothing else that is seen
    stands inside or between the runs with text, and these have one `t` with at most one text node) reads the
    same after it has been adapted: the same characters, in the same elements and in the same order.  Missing: the
    other documents, see the violations below. -/
theorem C87_content_partial {al : Char → Bool} (hlet : Letters al) {quiet : String → Bool} (hq : quiet "r" = false)
    (inh : Bool) (d : Xml) (h : AllTidy quiet inh d) :
    ∃ d', adapt al inh d = some d' ∧ content quiet inh d' = content quiet inh d :=
  ⟨_, adapt_some hlet d inh, (docOf_content hlet hq d inh h).1⟩

/-! ### Adapting twice -/

theorem oneText_docOf {al : Char → Bool} (hlet : Letters al) (inh : Bool) {x : Xml} (h : OneText x) :
    OneText (docOf al inh x) := by
  intro sp' kids' n tsp' tk' he hf
  cases x with
  | text => exact absurd he (by simp [docOf, adapt])
  | cdata => exact absurd he (by simp [docOf, adapt])
  | note => exact absurd he (by simp [docOf, adapt])
  | elem n0 sp kids =>
    rw [docOf_elem hlet] at he
    injection he with h1 h2 h3
    subst h1 h2
    simp only [show ("r" = "p") = False by simp, if_false] at h3
    subst h3
    have hfm : (kids.map (docOf al (sp.getD inh))).filter isT = (kids.filter isT).map (docOf al (sp.getD inh)) := by
      rw [List.filter_map]
      congr 1
      apply List.filter_congr
      intro y _
      simp [isT_docOf hlet]
    rw [hfm] at hf
    cases hk : kids.filter isT with
    | nil => rw [hk] at hf; simp at hf
    | cons y ys =>
      rw [hk] at hf
      simp only [List.map_cons, List.cons.injEq, List.map_eq_nil_iff] at hf
      obtain ⟨hy, rfl⟩ := hf
      have hyT : isT y = true := (List.mem_filter.1 (by rw [hk]; exact List.mem_cons_self .. : y ∈ kids.filter isT)).2
      cases y with
      | text => simp [isT] at hyT
      | cdata => simp [isT] at hyT
      | note => simp [isT] at hyT
      | elem n1 tsp tk =>
        have hn1 : n1 = "t" := by simpa [isT] using hyT
        subst hn1
        rw [docOf_elem hlet] at hy
        injection hy with g1 g2 g3
        subst g1 g2
        simp only [show ("t" = "p") = False by simp, if_false] at g3
        rcases h sp kids _ tsp tk rfl hk with rfl | ⟨s, rfl⟩
        · exact .inl (by rw [← g3]; rfl)
        · exact .inr ⟨s, by rw [← g3]; simp [docOf, adapt]⟩

/-- A run that is left alone by the program is left alone with another text, too. -/
theorem setText_fixed {al : Char → Bool} (hlet : Letters al) (inh : Bool) (s : Text) {x : Xml} {u : Text}
    (hr : runText inh x = some u) (ho : OneText x) (h : docOf al inh x = x) :
    docOf al inh (setText s x) = setText s x := by
  obtain ⟨sp, kids, tsp, tk, rfl, hf, rfl⟩ := runText_some hr
  have htk := ho sp kids _ tsp tk rfl hf
  rw [docOf_elem hlet] at h
  injection h with _ _ h3
  simp only [show ("r" = "p") = False by simp, if_false] at h3
  simp only [setText]
  rw [docOf_elem hlet]
  simp only [show ("r" = "p") = False by simp, if_false]
  congr 1
  rw [List.map_map]
  apply List.map_congr_left
  intro y hy
  have hfix : docOf al (sp.getD inh) y = y := by
    have : ∀ z ∈ kids, docOf al (sp.getD inh) z = id z := List.map_inj_left.1 (by rw [h3]; simp)
    exact this y hy
  simp only [Function.comp]
  by_cases ht : isT y = true
  · have hm : y ∈ kids.filter isT := List.mem_filter.2 ⟨hy, ht⟩
    rw [hf] at hm
    have hy' : y = .elem "t" tsp tk := by simpa using hm
    subst hy'
    rcases htk with rfl | ⟨s0, rfl⟩
    · simp only [setT]; rw [docOf_elem hlet]; simp
    · simp only [setT]; rw [docOf_elem hlet]; simp [docOf, adapt]
  · rw [setT_not (by simpa using ht)]
    exact hfix

theorem rewrite_fixed {al : Char → Bool} (hlet : Letters al) (inh : Bool) : ∀ (kids : List Xml) (join : Text) (L : List Nat),
    (∀ x ∈ kids, OneText x) → (∀ x ∈ kids, docOf al inh x = x) →
    (rewrite inh kids join L).map (docOf al inh) = rewrite inh kids join L := by
  intro kids
  induction kids with
  | nil => intro _ _ _ _; rfl
  | cons x xs ih =>
    intro join L ho hx
    have ho' := fun y hy => ho y (List.mem_cons_of_mem x hy)
    have hx' := fun y hy => hx y (List.mem_cons_of_mem x hy)
    have h0 := hx x (List.mem_cons_self ..)
    cases hr : runText inh x with
    | none => simp only [rewrite, hr, List.map_cons, h0, ih join L ho' hx']
    | some u =>
      cases L with
      | nil => simp only [rewrite, hr, List.map_cons, h0, ih join [] ho' hx']
      | cons l L =>
        simp only [rewrite, hr]
        split
        · exact ih join L ho' hx'
        · rw [List.map_cons, setText_fixed hlet inh _ hr (ho x (List.mem_cons_self ..)) h0, ih _ L ho' hx']

mutual
theorem docOf_twice {al : Char → Bool} (hlet : Letters al) :
    ∀ (x : Xml) (inh : Bool), AllOne x → docOf al inh (docOf al inh x) = docOf al inh x
  | .elem n sp kids, inh, h => by
    have ih := docOf_twiceL hlet kids (sp.getD inh) h.1
    have hm : (kids.map (docOf al (sp.getD inh))).map (docOf al (sp.getD inh)) = kids.map (docOf al (sp.getD inh)) := by
      rw [List.map_map]
      exact List.map_congr_left ih
    rw [docOf_elem hlet, docOf_elem hlet]
    by_cases hp : n = "p"
    · simp only [hp, if_true]
      have ho : ∀ y ∈ kids.map (docOf al (sp.getD inh)), OneText y := by
        intro y hy
        obtain ⟨z, hz, rfl⟩ := List.mem_map.1 hy
        exact oneText_docOf hlet _ (h.2 hp z hz)
      have hfix : ∀ y ∈ kids.map (docOf al (sp.getD inh)), docOf al (sp.getD inh) y = y := by
        intro y hy
        obtain ⟨z, hz, rfl⟩ := List.mem_map.1 hy
        exact ih z hz
      obtain ⟨ks, e1, _, e3⟩ := C87_legal hlet (sp.getD inh) _ ho
      have hpo : paraOf al (sp.getD inh) (kids.map (docOf al (sp.getD inh))) = ks := by simp [paraOf, e1]
      have hkm : ks.map (docOf al (sp.getD inh)) = ks := by
        obtain ⟨ks', f1, f2⟩ := adaptPara_spec hlet (sp.getD inh) (kids.map (docOf al (sp.getD inh)))
        have : ks' = ks := by rw [e1] at f1; exact (Option.some.inj f1).symm
        subst this
        rcases f2 with f2 | ⟨L, f2, _⟩
        · rw [f2, hm]
        · rw [f2]; exact rewrite_fixed hlet _ _ _ _ ho hfix
      rw [hpo, hkm]
      simp [paraOf, C87_unchanged hlet (sp.getD inh) ks e3]
    · simp only [hp, if_false, hm]
  | .text _, _, _ => rfl
  | .cdata _, _, _ => rfl
  | .note _, _, _ => rfl
theorem docOf_twiceL {al : Char → Bool} (hlet : Letters al) :
    ∀ (xs : List Xml) (inh : Bool), AllOneL xs → ∀ x ∈ xs, docOf al inh (docOf al inh x) = docOf al inh x
  | [], _, _ => fun x hx => absurd hx (by simp)
  | y :: ys, inh, h => by
    have h1 := docOf_twice hlet y inh h.1
    have h2 := docOf_twiceL hlet ys inh h.2
    intro x hx
    rcases List.mem_cons.1 hx with rfl | hx
    · exact h1
    · exact h2 x hx
end

/-- C87: adapting a document a second time changes nothing. -/
theorem C87_twice {al : Char → Bool} (hlet : Letters al) (inh : Bool) (d : Xml) (h : AllOne d) :
    ∃ d', adapt al inh d = some d' ∧ adapt al inh d' = some d' := by
  refine ⟨_, adapt_some hlet d inh, ?_⟩
  rw [adapt_some hlet, docOf_twice hlet d inh h]

/-! ### All paragraphs -/

theorem allLegalL_iff {al : Char → Bool} {inh : Bool} {xs : List Xml} :
    AllLegalL al inh xs ↔ ∀ x ∈ xs, AllLegal al inh x := by
  induction xs with
  | nil => simp [AllLegalL]
  | cons x xs ih => simp [AllLegalL, ih]

theorem setText_legal {al : Char → Bool} (inh : Bool) (s : Text) {x : Xml} {u : Text}
    (hr : runText inh x = some u) (ho : OneText x) (h : AllLegal al inh x) : AllLegal al inh (setText s x) := by
  obtain ⟨sp, kids, tsp, tk, rfl, hf, rfl⟩ := runText_some hr
  have htk := ho sp kids _ tsp tk rfl hf
  obtain ⟨h1, _⟩ := h
  rw [allLegalL_iff] at h1
  refine ⟨?_, fun h => absurd h (by decide)⟩
  rw [allLegalL_iff]
  intro y hy
  obtain ⟨z, hz, rfl⟩ := List.mem_map.1 hy
  by_cases ht : isT z = true
  · have hm : z ∈ kids.filter isT := List.mem_filter.2 ⟨hz, ht⟩
    rw [hf] at hm
    have hz' : z = .elem "t" tsp tk := by simpa using hm
    subst hz'
    rcases htk with rfl | ⟨s0, rfl⟩
    · exact ⟨trivial, fun h => absurd h (by decide)⟩
    · exact ⟨⟨trivial, trivial⟩, fun h => absurd h (by decide)⟩
  · rw [setT_not (by simpa using ht)]
    exact h1 z hz

theorem rewrite_legal {al : Char → Bool} (inh : Bool) : ∀ (kids : List Xml) (join : Text) (L : List Nat),
    (∀ x ∈ kids, OneText x) → (∀ x ∈ kids, AllLegal al inh x) → AllLegalL al inh (rewrite inh kids join L) := by
  intro kids
  induction kids with
  | nil => intro _ _ _ _; trivial
  | cons x xs ih =>
    intro join L ho hx
    have ho' := fun y hy => ho y (List.mem_cons_of_mem x hy)
    have hx' := fun y hy => hx y (List.mem_cons_of_mem x hy)
    have h0 := hx x (List.mem_cons_self ..)
    cases hr : runText inh x with
    | none => simp only [rewrite, hr]; exact ⟨h0, ih join L ho' hx'⟩
    | some u =>
      cases L with
      | nil => simp only [rewrite, hr]; exact ⟨h0, ih join [] ho' hx'⟩
      | cons l L =>
        simp only [rewrite, hr]
        split
        · exact ih join L ho' hx'
        · exact ⟨setText_legal inh _ hr (ho x (List.mem_cons_self ..)) h0, ih _ L ho' hx'⟩

mutual
theorem docOf_legal {al : Char → Bool} (hlet : Letters al) :
    ∀ (x : Xml) (inh : Bool), AllOne x → AllLegal al inh (docOf al inh x)
  | .elem n sp kids, inh, h => by
    have ih := docOf_legalL hlet kids (sp.getD inh) h.1
    have ih' : ∀ y ∈ kids.map (docOf al (sp.getD inh)), AllLegal al (sp.getD inh) y := by
      intro y hy
      obtain ⟨z, hz, rfl⟩ := List.mem_map.1 hy
      exact ih z hz
    rw [docOf_elem hlet]
    by_cases hp : n = "p"
    · simp only [hp, if_true]
      have ho : ∀ y ∈ kids.map (docOf al (sp.getD inh)), OneText y := by
        intro y hy
        obtain ⟨z, hz, rfl⟩ := List.mem_map.1 hy
        exact oneText_docOf hlet _ (h.2 hp z hz)
      obtain ⟨ks, e1, _, e3⟩ := C87_legal hlet (sp.getD inh) _ ho
      have hpo : paraOf al (sp.getD inh) (kids.map (docOf al (sp.getD inh))) = ks := by simp [paraOf, e1]
      rw [hpo]
      refine ⟨?_, fun _ => e3⟩
      obtain ⟨ks', f1, f2⟩ := adaptPara_spec hlet (sp.getD inh) (kids.map (docOf al (sp.getD inh)))
      have : ks' = ks := by rw [e1] at f1; exact (Option.some.inj f1).symm
      subst this
      rcases f2 with f2 | ⟨L, f2, _⟩
      · rw [f2, allLegalL_iff]; exact ih'
      · rw [f2]; exact rewrite_legal _ _ _ _ ho ih'
    · simp only [hp, if_false]
      exact ⟨allLegalL_iff.2 ih', fun h => absurd h hp⟩
  | .text _, _, _ => trivial
  | .cdata _, _, _ => trivial
  | .note _, _, _ => trivial
theorem docOf_legalL {al : Char → Bool} (hlet : Letters al) :
    ∀ (xs : List Xml) (inh : Bool), AllOneL xs → ∀ x ∈ xs, AllLegal al inh (docOf al inh x)
  | [], _, _ => fun x hx => absurd hx (by simp)
  | y :: ys, inh, h => by
    have h1 := docOf_legal hlet y inh h.1
    have h2 := docOf_legalL hlet ys inh h.2
    intro x hx
    rcases List.mem_cons.1 hx with rfl | hx
    · exact h1
    · exact h2 x hx
end

/-- C87: in the adapted document, however its paragraphs are nested, no word is divided between two runs. -/
theorem C87_document {al : Char → Bool} (hlet : Letters al) (inh : Bool) (d : Xml) (h : AllOne d) :
    ∃ d', adapt al inh d = some d' ∧ AllLegal al inh d' :=
  ⟨_, adapt_some hlet d inh, docOf_legal hlet d inh h⟩

/-! ### The printing -/

/-- Lines with newlines behind each of them. -/
def joined : List (Text × Text) → Text
  | [] => []
  | (line, nls) :: rest => line ++ nls ++ joined rest

theorem nl2spc_line (line nls rest : Text) (h1 : ∀ c ∈ line, c ≠ '\n' ∧ c ≠ '\r')
    (h2 : ∀ c ∈ nls, c = '\n' ∨ c = '\r') (h3 : nls ≠ [])
    (h4 : ∀ c, rest.head? = some c → c ≠ '\n' ∧ c ≠ '\r') :
    nl2spc (line ++ nls ++ rest) = (line ++ [' '], rest) := by
  obtain ⟨n, ns, rfl⟩ : ∃ n ns, nls = n :: ns := by
    cases nls with
    | nil => exact absurd rfl h3
    | cons n ns => exact ⟨n, ns, rfl⟩
  have hn := h2 n (List.mem_cons_self ..)
  have hl : ∀ c ∈ line, (!(decide (c = '\n') || decide (c = '\r'))) = true := by
    intro c hc
    have := h1 c hc
    simp [this.1, this.2]
  have hns : ∀ c ∈ n :: ns, (decide (c = '\n') || decide (c = '\r')) = true := by
    intro c hc
    simpa using h2 c hc
  have e1 : (line ++ n :: ns ++ rest).takeWhile (fun c => !(decide (c = '\n') || decide (c = '\r'))) = line := by
    rw [List.append_assoc, List.takeWhile_append_of_pos hl, List.cons_append, List.takeWhile_cons_of_neg (by rcases hn with h | h <;> simp [h])]
    simp
  have e2 : (line ++ n :: ns ++ rest).dropWhile (fun c => !(decide (c = '\n') || decide (c = '\r'))) = n :: ns ++ rest := by
    rw [List.append_assoc, List.dropWhile_append_of_pos hl, List.cons_append, List.dropWhile_cons_of_neg (by rcases hn with h | h <;> simp [h])]
  have e3 : (n :: ns ++ rest).dropWhile (fun c => decide (c = '\n') || decide (c = '\r')) = rest := by
    rw [List.dropWhile_append_of_pos hns]
    apply dropWhile_head
    intro c hc
    have := h4 c hc
    simp [this.1, this.2]
  simp only [nl2spc, e1, e2, e3]

/-- What holds of the lines of a printed document: no newlines in them, newlines behind each of them, and
    none of them empty (runs of newlines are taken together). -/
def Lines (ls : List (Text × Text)) : Prop :=
  ∀ l ∈ ls, l.1 ≠ [] ∧ (∀ c ∈ l.1, c ≠ '\n' ∧ c ≠ '\r') ∧ l.2 ≠ [] ∧ (∀ c ∈ l.2, c = '\n' ∨ c = '\r')

theorem joined_head {ls : List (Text × Text)} (h : Lines ls) (c : Char) (hc : (joined ls).head? = some c) :
    c ≠ '\n' ∧ c ≠ '\r' := by
  cases ls with
  | nil => simp [joined] at hc
  | cons l ls =>
    obtain ⟨line, nls⟩ := l
    obtain ⟨h1, h2, _, _⟩ := h _ (List.mem_cons_self ..)
    cases line with
    | nil => exact absurd rfl h1
    | cons a line =>
      simp [joined] at hc
      subst hc
      exact h2 a (List.mem_cons_self ..)

theorem printRest_lines : ∀ (ls : List (Text × Text)) (fuel : Nat), ls ≠ [] → Lines ls → ls.length ≤ fuel →
    printRest fuel (joined ls) = ls.flatMap (fun l => l.1 ++ [' ']) := by
  intro ls
  induction ls with
  | nil => intro _ h; exact absurd rfl h
  | cons l ls ih =>
    intro fuel _ h hf
    obtain ⟨line, nls⟩ := l
    obtain ⟨h1, h2, h3, h4⟩ := h _ (List.mem_cons_self ..)
    have hls : Lines ls := fun y hy => h y (List.mem_cons_of_mem _ hy)
    cases fuel with
    | zero => simp at hf
    | succ fuel =>
      simp only [joined, printRest, nl2spc_line line nls (joined ls) h2 h4 h3 (joined_head hls)]
      cases ls with
      | nil => simp [joined]
      | cons m ms =>
        have hne : (joined (m :: ms)).isEmpty = false := by
          obtain ⟨g1, _⟩ := hls m (List.mem_cons_self ..)
          obtain ⟨m1, m2⟩ := m
          cases m1 with
          | nil => exact absurd rfl g1
          | cons a m1 => rfl
        rw [hne, ih fuel (by simp) hls (by simpa using hf)]
        simp

theorem joined_length {ls : List (Text × Text)} (h : Lines ls) : ls.length ≤ (joined ls).length := by
  induction ls with
  | nil => simp
  | cons l ls ih =>
    obtain ⟨h1, _⟩ := h l (List.mem_cons_self ..)
    obtain ⟨line, nls⟩ := l
    have := ih (fun y hy => h y (List.mem_cons_of_mem _ hy))
    have : 0 < line.length := List.length_pos_iff.2 h1
    simp [joined]
    omega

/-- C87: a document that libxml2 wrote in two lines or more is printed in one line, with a space for the
    newlines between them and a space at the end. -/
theorem C87_print (l m : Text × Text) (ls : List (Text × Text)) (h : Lines (l :: m :: ls)) :
    printAll (joined (l :: m :: ls)) = (l :: m :: ls).flatMap (fun x => x.1 ++ [' ']) := by
  obtain ⟨line, nls⟩ := l
  obtain ⟨h1, h2, h3, h4⟩ := h _ (List.mem_cons_self ..)
  have hls : Lines (m :: ls) := fun y hy => h y (List.mem_cons_of_mem _ hy)
  have e := nl2spc_line line nls (joined (m :: ls)) h2 h4 h3 (joined_head hls)
  simp only [printAll]
  rw [show joined ((line, nls) :: m :: ls) = line ++ nls ++ joined (m :: ls) from rfl, e]
  simp only []
  rw [printRest_lines (m :: ls) _ (by simp) hls (joined_length hls)]
  simp

example : Lines [(t!"<?xml?>", t!"\n"), (t!"<w>a", t!"\r\n\n"), (t!"b</w>", t!"\n")] ∧
    printAll (joined [(t!"<?xml?>", t!"\n"), (t!"<w>a", t!"\r\n\n"), (t!"b</w>", t!"\n")]) = t!"<?xml?> <w>a b</w> " := by
  refine ⟨?_, by decide +kernel⟩
  intro l hl
  simp at hl
  rcases hl with rfl | rfl | rfl <;> decide

/-! ### Examples and violations -/

/-- A run. -/
abbrev run (s : Text) : Xml := .elem "r" none [.elem "rPr" none [], .elem "t" none [.text s]]

/-- A paragraph in a document. -/
abbrev doc (kids : List Xml) : Xml := .elem "document" none [.elem "body" none [.elem "p" none (.elem "pPr" none [] :: kids)]]

/-- A run whose `xml:space` has been set. -/
abbrev runS (b : Bool) (s : Text) : Xml := .elem "r" none [.elem "rPr" none [], .elem "t" (some b) [.text s]]

/-- Formatting and spelling marks are not seen. -/
def hidden (n : String) : Bool := decide (n = "rPr") || decide (n = "pPr") || decide (n = "proofErr")

/-- A paragraph of which the program changes the boundaries. -/
abbrev sample : Xml :=
  doc [run t!"ca", .elem "proofErr" none [], runS true t!"sa no", run t!"v", runS true t!"a fi"]

example : adapt ascii false sample =
    some (doc [runS false t!"casa", .elem "proofErr" none [], runS true t!" nova", runS true t!" fi"]) := by
  rfl

theorem oneText_run (sp b : Option Bool) (s : Text) :
    OneText (.elem "r" sp [.elem "rPr" none [], .elem "t" b [.text s]]) := by
  intro sp' kids n tsp tk h hf
  injection h with _ _ h3
  subst h3
  have : [Xml.elem "t" b [.text s]] = [.elem n tsp tk] := hf
  simp at this
  exact .inr ⟨s, this.2.2.symm⟩

theorem oneText_other (n : String) (sp : Option Bool) (kids : List Xml) (hn : n ≠ "r") : OneText (.elem n sp kids) := by
  intro sp' kids n' tsp tk h _
  injection h with h1 _ _
  exact absurd h1 hn

theorem noRun_other (n : String) (sp : Option Bool) (kids : List Xml) (hn : n ≠ "r") : NoRun (.elem n sp kids) := by
  intro sp' kids h
  injection h with h1 _ _
  exact absurd h1 hn

theorem simple_run (b : Option Bool) (s : Text) :
    Simple hidden false (.elem "r" none [.elem "rPr" none [], .elem "t" b [.text s]]) :=
  ⟨none, [.elem "rPr" none []], b, [.text s], [], rfl, .inr ⟨s, rfl⟩, by
    intro y hy
    simp at hy
    subst hy
    exact ⟨by decide, by decide⟩⟩

/-- The hypotheses of `C87_content_partial`, `C87_legal` and `C87_twice` hold of the sample. -/
example : AllTidy hidden false sample ∧ AllOne sample ∧ hidden "r" = false := by
  refine ⟨?_, ?_, by decide⟩
  · simp only [AllTidy, AllTidyL, and_true, true_and]
    refine ⟨⟨⟨⟨?_, ?_, ?_, ?_, ?_, ?_⟩, ?_⟩, by simp⟩, by simp⟩
    · simp
    · simp
    · simp
    · simp
    · simp
    · simp
    · intro _
      refine ⟨[.elem "pPr" none []], [run t!"ca", .elem "proofErr" none [], runS true t!"sa no", run t!"v",
        runS true t!"a fi"], [], rfl, ?_, by simp, ?_⟩
      · intro x hx
        simp at hx
        subst hx
        exact noRun_other _ _ _ (by decide)
      · intro x hx
        simp only [List.mem_cons, List.not_mem_nil, or_false] at hx
        rcases hx with rfl | rfl | rfl | rfl | rfl
        · exact .inl (simple_run _ _)
        · exact .inr ⟨noRun_other _ _ _ (by decide), by decide⟩
        · exact .inl (simple_run _ _)
        · exact .inl (simple_run _ _)
        · exact .inl (simple_run _ _)
  · simp only [AllOne, AllOneL, and_true, true_and]
    refine ⟨⟨⟨?_, ?_⟩, by simp⟩, by simp⟩
    · simp
    · intro _ x hx
      simp only [List.mem_cons, List.not_mem_nil, or_false] at hx
      rcases hx with rfl | rfl | rfl | rfl | rfl | rfl
      · exact oneText_other _ _ _ (by decide)
      · exact oneText_run _ _ _
      · exact oneText_other _ _ _ (by decide)
      · exact oneText_run _ _ _
      · exact oneText_run _ _ _
      · exact oneText_run _ _ _

/-- C87 fails: a tab between two runs does not stop the text: `foo`, a tab and `bar` become `foobar` and a tab. -/
theorem C87_tab_violation :
    adapt ascii false (doc [run t!"foo", .elem "r" none [.elem "tab" none []], run t!"bar"]) =
      some (doc [runS false t!"foobar", .elem "r" none [.elem "tab" none []]]) ∧
    content hidden false (doc [runS false t!"foobar", .elem "r" none [.elem "tab" none []]]) ≠
      content hidden false (doc [run t!"foo", .elem "r" none [.elem "tab" none []], run t!"bar"]) :=
  ⟨rfl, by decide +kernel⟩

/-- C87 fails: a text moves across a hyperlink, so that its letters come in another order:
    `pre`, the linked `cat`, `fix` become `prefix`, the linked `cat`. -/
theorem C87_hyperlink_violation :
    adapt ascii false (doc [run t!"pre", .elem "hyperlink" none [run t!"cat"], run t!"fix"]) =
      some (doc [runS false t!"prefix", .elem "hyperlink" none [run t!"cat"]]) ∧
    content hidden false (doc [runS false t!"prefix", .elem "hyperlink" none [run t!"cat"]]) ≠
      content hidden false (doc [run t!"pre", .elem "hyperlink" none [run t!"cat"], run t!"fix"]) :=
  ⟨rfl, by decide +kernel⟩

/-- C87 fails: a run whose text moves away is removed with everything that is in it, here a line break. -/
theorem C87_break_violation :
    adapt ascii false (doc [run t!"foo", .elem "r" none [.elem "t" none [.text t!"bar"], .elem "br" none []], run t!"."]) =
      some (doc [runS false t!"foobar", runS false t!"."]) ∧
    Mark.opens "br" ∈ content hidden false
      (doc [run t!"foo", .elem "r" none [.elem "t" none [.text t!"bar"], .elem "br" none []], run t!"."]) ∧
    Mark.opens "br" ∉ content hidden false (doc [runS false t!"foobar", runS false t!"."]) :=
  ⟨rfl, by decide +kernel, by decide +kernel⟩

/-- C87 fails: a text that a comment divides is written twice in part: `fo`, a comment, `o` and `bar` in the next
    run become `foobar`, the comment and `o`. -/
theorem C87_comment_violation :
    adapt ascii false (doc [.elem "r" none [.elem "t" none [.text t!"fo", .note t!"x", .text t!"o"]], run t!"bar ."]) =
      some (doc [.elem "r" none [.elem "t" (some false) [.text t!"foobar", .note t!"x", .text t!"o"]], runS true t!" ."]) ∧
    content hidden false
        (doc [.elem "r" none [.elem "t" (some false) [.text t!"foobar", .note t!"x", .text t!"o"]], runS true t!" ."]) ≠
      content hidden false
        (doc [.elem "r" none [.elem "t" none [.text t!"fo", .note t!"x", .text t!"o"]], run t!"bar ."]) :=
  ⟨rfl, by decide +kernel⟩

/-- C87 fails: a text in a CDATA section is not seen by the program, and its run is removed as soon as another
    boundary of the paragraph is moved. -/
theorem C87_cdata_violation :
    adapt ascii false (doc [run t!"ca", runS true t!"sa ", .elem "r" none [.elem "t" none [.cdata t!"nova"]]]) =
      some (doc [runS false t!"casa", runS true t!" "]) ∧
    content hidden false (doc [runS false t!"casa", runS true t!" "]) ≠
      content hidden false (doc [run t!"ca", runS true t!"sa ", .elem "r" none [.elem "t" none [.cdata t!"nova"]]]) :=
  ⟨rfl, by decide +kernel⟩

/-- C87 fails: a hyphen at the end of the paragraph loses its format although it is not inside a word. -/
theorem C87_dangling_violation :
    ¬ InWord ascii t!"foo" t!"-" ∧
    adapt ascii false (doc [run t!"foo", run t!"-"]) = some (doc [runS false t!"foo-"]) := by
  refine ⟨?_, rfl⟩
  rintro (⟨a, b, ha, hb, _, h⟩ | ⟨a, b, ha, hb, _, h⟩ | ⟨a, b, ha, hb, _, h⟩ | ⟨a, b, ha, hb, _, h⟩ | ⟨a, b, ha, hb, _, h⟩)
  · simp at h; subst h; exact absurd hb (by decide)
  · simp at h; subst h; exact absurd hb (by decide)
  · simp at h
  · simp at h; subst h; rcases hb with hb | hb <;> exact absurd hb (by decide)
  · simp at h

end Verif.Docx
