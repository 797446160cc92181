import Verif.Mtx.Parse
/-!
# C83: an `.mtx` file is read as it is written
-/
namespace Verif.Mtx
open Verif.VM (Ctx Val Str Expr Stmt Spec Source compile compileFeat columns noVars CleanFeat meaning Clean Fits Choice GlobalsAre getFeatures)
open Verif.Tsx (Node)

theorem xcolumns_ctx (c : Ctx) (gs : List Val) (f : Template) : xcolumns { c with globals := gs } f = xcolumns c f := by
  induction f with
  | nil => rfl
  | cons i f ih => cases i <;> simp only [xcolumns, elems_ctx, ih]

theorem instr_ctx (c : Ctx) (gs : List Val) (i : Instr) : i.Clean { c with globals := gs } ↔ i.Clean c := by
  cases i with
  | pred x => cases x <;> exact clean_ctx _ _ _ _
  | _ => exact clean_ctx _ _ _ _

theorem xcleanFeat_ctx (c : Ctx) (gs : List Val) (f : Template) : XCleanFeat { c with globals := gs } f ↔ XCleanFeat c f := by
  induction f with
  | nil => exact Iff.rfl
  | cons i f ih => simp only [XCleanFeat, instr_ctx, xcolumns_ctx, ih]

theorem forall2_get {α β : Type} {R : α → β → Prop} {as : List α} {bs : List β} (h : List.Forall₂ R as bs) :
    as.length = bs.length ∧ ∀ (j : Nat) (b : β), bs[j]? = some b → ∃ a, as[j]? = some a ∧ R a b := by
  induction h with
  | nil => exact ⟨rfl, fun j b h => by simp at h⟩
  | cons hab _ ih =>
    refine ⟨by simp [ih.1], fun j b h => ?_⟩
    cases j with
    | zero => simp at h; exact ⟨_, by simp, h ▸ hab⟩
    | succ j => simpa using ih.2 j b (by simpa using h)

theorem forall2_get' {α β : Type} {R : α → β → Prop} {as : List α} {bs : List β} (h : List.Forall₂ R as bs) :
    ∀ (j : Nat) (a : α), as[j]? = some a → ∃ b, bs[j]? = some b ∧ R a b := by
  induction h with
  | nil => exact fun j b h => by simp at h
  | cons hab _ ih =>
    intro j b h
    cases j with
    | zero => simp at h; exact ⟨_, by simp, h ▸ hab⟩
    | succ j => simpa using ih j b (by simpa using h)

/-- The values of the globals exist, and each is that of its expression. -/
theorem globals_are {c : Ctx} {es : List Expr} (h : ∀ e ∈ es, Fits e ∧ ∃ v, ∀ gs, meaning { c with globals := gs } e noVars = some [v] ∧ Clean { c with globals := gs } e noVars)
    (done : List Val) : ∃ vs, GlobalsAre c es done (done ++ vs) ∧ List.Forall₂ (fun e v => meaning { c with globals := [] } e noVars = some [v]) es vs := by
  induction es generalizing done with
  | nil => exact ⟨[], by rw [List.append_nil]; exact .nil, .nil⟩
  | cons e es ih =>
    obtain ⟨hf, v, hv⟩ := h e (by simp)
    obtain ⟨vs, h1, h2⟩ := ih (fun e' he => h e' (by simp [he])) (done ++ [v])
    exact ⟨v :: vs, .cons (hv done).1 hf (hv done).2 (by simpa using h1), .cons (hv []).1 h2⟩

/-- Where the tagger definition is looked for. -/
theorem tsxPath_beside (path file : Text) : Beside path file (tsxPath path file) := by
  unfold Beside
  by_cases h : file.head? = some '/' ∨ file[1]? = some ':'
  · rw [if_pos h]
    rcases h with h | h
    · cases file with
      | nil => cases h
      | cons a r => simp at h; subst h; rfl
    · match file, h with
      | a :: b :: r, h =>
        simp at h; subst h
        unfold tsxPath
        split <;> simp_all
  · rw [if_neg h]
    refine ⟨(path.reverse.dropWhile (fun c => decide (c ≠ '/'))).reverse, (path.reverse.takeWhile (fun c => decide (c ≠ '/'))).reverse, ?_, ?_, ?_, ?_⟩
    · rw [← List.reverse_append, List.takeWhile_append_dropWhile, List.reverse_reverse]
    · intro hm
      have := List.all_eq_true.1 (List.all_takeWhile (p := fun c => decide (c ≠ '/')) (l := path.reverse)) _ (List.mem_reverse.1 hm)
      simp at this
    · cases hd : path.reverse.dropWhile (fun c => decide (c ≠ '/')) with
      | nil => exact .inl rfl
      | cons a r =>
        have := List.head?_dropWhile_not (fun c => decide (c ≠ '/')) path.reverse
        rw [hd] at this
        simp at this
        subst this
        exact .inr (by simp)
    · unfold tsxPath
      split
      · simp at h
      · simp at h
      · rfl

/-- The features of the file at a place of a sentence, from what is written in it.  The file `d` is written as the nodes `ns`; its names and numbers fit (`Small`). -/
theorem C83_read_partial (κ : Bool) (d : Doc) (ns : List Node) (hw : Writes κ d ns) (hs : Small ns) (path : Text) :
    ∃ t, parse path ns = .ok t ∧ (d.coarse = none → t.coarse = none) ∧ (∀ p, d.coarse = some p → ∃ r, t.coarse = some r ∧ Beside path p r) ∧
      ∀ c : Ctx, c.strConsts = t.strs.map c.enc → c.setConsts = t.sets.map (·.map c.enc) →
        (∀ n ty x, Def.mac n ty x ∈ d.defs → XClean c x noNames ∧ ∃ v, xmeaning c x noNames = some [v]) →
        (∀ f ∈ d.feats, XCleanFeat c f ∧ xcolumns c f ≠ none) →
        ∀ b, (d.cond = none → b = true) → (∀ y, d.cond = some y → XClean c y noNames ∧ xmeaning c y noNames = some [.bool b]) →
          ∃ n ks, (∀ fuel, n ≤ fuel → getFeatures c fuel ⟨t.globalPred, t.globals, t.features⟩ = .ok ks) ∧
            ∀ k, k ∈ ks ↔ b = true ∧ ∃ j f cols xs, d.feats[j]? = some f ∧ xcolumns c f = some (some cols) ∧ Choice xs cols ∧ k = [j % 256] :: xs := by
  obtain ⟨t, M, E, sss, hp, R⟩ := hw.read hs path
  refine ⟨t, hp, fun h => by simp [R.coarse, h], fun p h => ⟨_, by simp [R.coarse, h], tsxPath_beside path p⟩, fun c h1 h2 hmac hfe b hb0 hb1 => ?_⟩
  have hc0 (gs : List Val) : Cons { c with globals := gs } t.strs t.sets [] :=
    ⟨fun i s hi => by simp [h1, hi], fun i l hi => by simp [h2, hi], fun k e hk => by simp at hk⟩
  have hE : ∀ e ∈ E, Fits e ∧ ∃ v, ∀ gs, meaning { c with globals := gs } e noVars = some [v] ∧ Clean { c with globals := gs } e noVars := by
    intro e he
    obtain ⟨n, ty, x, hd, hm, hf⟩ := R.macros e (R.sub e he)
    obtain ⟨hcl, v, hv⟩ := hmac n ty x hd
    refine ⟨hf, v, fun gs => ?_⟩
    obtain ⟨m1, m2⟩ := hm _ (hc0 gs) noNames noVars (fun _ _ h => by cases h)
    exact ⟨by rw [m1, elems_ctx]; exact hv, m2 ((clean_ctx c gs x noNames).2 hcl)⟩
  obtain ⟨gs, hg, hgv⟩ := globals_are hE []
  rw [List.nil_append] at hg
  have hc : Cons { c with globals := gs } t.strs t.sets E :=
    ⟨(hc0 gs).1, (hc0 gs).2.1, fun k e hk => forall2_get' hgv k e hk⟩
  have hex : ∃ q : Option Expr, (match q with | none => [] | some e => compile e) = t.globalPred ∧
      (∀ e, q = some e → Fits e ∧ Clean { c with globals := [] } e noVars ∧ meaning { c with globals := [] } e noVars = some [.bool b]) ∧ (q = none → b = true) := by
    rcases R.cond with ⟨hd, ht⟩ | ⟨y, e, hd, ht, hcl⟩
    · exact ⟨none, ht.symm, fun e h => by simp at h, fun _ => hb0 hd⟩
    · obtain ⟨k1, k2⟩ := hb1 y hd
      refine ⟨some e, ht.symm, fun e' h => ?_, fun h => by simp at h⟩
      cases h
      obtain ⟨m1, m2⟩ := hcl.at (hc0 [])
      exact ⟨hcl.2.1, m2 ((clean_ctx c [] y noNames).2 k1), by rw [m1, elems_ctx]; exact k2⟩
  obtain ⟨q, hq, hq1, hq2⟩ := hex
  have hsrc : (Source.mk q E sss).compile = ⟨t.globalPred, t.globals, t.features⟩ := by
    simp only [Source.compile, R.glob, R.features, ← hq]
    cases q <;> rfl
  have hcol {f : Template} {ss : List Stmt} (h : List.Forall₂ (Same t.strs t.sets E) f ss) : columns { c with globals := gs } ss = xcolumns c f := by
    rw [columns_eq hc h, xcolumns_ctx]
  have hmem : ∀ ss ∈ sss, ∃ f ∈ d.feats, List.Forall₂ (Same t.strs t.sets E) f ss := by
    intro ss hss
    obtain ⟨j, hj⟩ := List.mem_iff_getElem?.1 hss
    obtain ⟨f, hf, hr⟩ := (forall2_get R.feats).2 j ss hj
    exact ⟨f, List.mem_iff_getElem?.2 ⟨j, hf⟩, hr⟩
  obtain ⟨n, ks, r1, r2⟩ := VM.C58_features_partial c ⟨q, E, sss⟩ gs hg
    (fun ss hss s hs' => by
      obtain ⟨f, _, hr⟩ := hmem ss hss
      obtain ⟨j, hj⟩ := List.mem_iff_getElem?.1 hs'
      obtain ⟨i, _, hi⟩ := (forall2_get hr).2 j s hj
      exact hi.fits)
    (fun ss hss => by
      obtain ⟨f, hf, hr⟩ := hmem ss hss
      exact cleanFeat_of hc hr ((xcleanFeat_ctx c gs f).2 (hfe f hf).1))
    (fun ss hss => by
      obtain ⟨f, hf, hr⟩ := hmem ss hss
      rw [hcol hr]; exact (hfe f hf).2)
    b hq1 hq2
  refine ⟨n, ks, fun fuel hfu => by rw [← hsrc]; exact r1 fuel hfu, fun k => ?_⟩
  rw [r2 k]
  refine and_congr_right fun _ => ⟨?_, ?_⟩
  · rintro ⟨j, ss, cols, xs, a1, a2, a3, a4⟩
    obtain ⟨f, hf, hr⟩ := (forall2_get R.feats).2 j ss a1
    exact ⟨j, f, cols, xs, hf, by rw [← hcol hr]; exact a2, a3, a4⟩
  · rintro ⟨j, f, cols, xs, a1, a2, a3, a4⟩
    obtain ⟨ss, hss, hr⟩ := forall2_get' R.feats j f a1
    exact ⟨j, ss, cols, xs, hss, by rw [hcol hr]; exact a2, a3, a4⟩

end Verif.Mtx
