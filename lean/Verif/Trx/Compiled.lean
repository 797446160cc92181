import Verif.Trx.Props
import Verif.Serial.Proofs
/-!
# C84: the compiled file
-/
namespace Verif.Trx
open Verif.Serial (Wr Rd mbWrite mbRead strWrite strRead Reads reads_mb reads_count reads_str)

theorem reads_text (t : Text) : Reads (wText t) rText t := by
  have h := (reads_str (t.map Char.toNat)).map (fun l => l.map Char.ofNat)
  have e : (t.map Char.toNat).map Char.ofNat = t := by
    rw [List.map_map]
    conv => rhs; rw [← List.map_id t]
    exact List.map_congr_left fun c _ => Char.ofNat_toNat c
  rw [e] at h
  exact h

theorem reads_all {σ β : Type} {f : β → Wr} {step : σ → Rd σ} {g : σ → β → σ} (l : List β) (s : σ) (h : ∀ s, ∀ x ∈ l, Reads (f x) (step s) (g s x)) :
    Reads (wAll f l) (rAll step s) (l.foldl g s) := reads_count l s h

theorem putNat_new (m : List (Nat × Nat)) (e : Nat × Nat) (h : e.1 ∉ m.map (·.1)) : putNat m e.1 e.2 = m ++ [e] := by
  simp only [putNat]
  rw [if_neg]
  intro h'
  obtain ⟨x, hx, he⟩ := List.any_eq_true.1 h'
  exact h (List.mem_map.2 ⟨x, hx, by simpa using he⟩)

theorem fold_putNat (l m : List (Nat × Nat)) (h : ((m ++ l).map (·.1)).Nodup) : l.foldl (fun m c => putNat m c.1 c.2) m = m ++ l := by
  induction l generalizing m with
  | nil => simp
  | cons e l ih =>
    have hn : e.1 ∉ m.map (·.1) := by
      intro hm
      rw [List.map_append, List.nodup_append] at h
      exact h.2.2 _ hm _ (by simp) rfl
    rw [List.foldl_cons, putNat_new m e hn, ih _ (by simpa using h)]
    simp

theorem foldl_pair {β γ : Type} (f : β → α → β) (g : γ → α → γ) (l : List α) (s : β × γ) : l.foldl (fun s a => (f s.1 a, g s.2 a)) s = (l.foldl f s.1, l.foldl g s.2) := by
  induction l generalizing s with
  | nil => rfl
  | cons a l ih => simp [ih]

theorem read_write {A : Type} (fmt : Format A) (a : A) (finals : List (Nat × Nat)) (td : TD) (lower : Text → Text) (hf : (finals.map (·.1)).Nodup) (ha : (keys td.attrs).Nodup)
    (hv : (keys td.vars).Nodup) (hm : (keys td.macros).Nodup) :
    Reads (write fmt a finals td) (read fmt lower)
      { auto := a, finals := finals, attrs := td.attrs, vars := td.vars, defaults := td.vars, macros := td.macros,
        lists := td.lists.foldl (fun m c => c.2.foldl (fun m v => listAdd m c.1 v) m) [],
        lower := td.lists.foldl (fun m c => c.2.foldl (fun m v => listAdd m c.1 (lower v)) m) [] } := by
  have h1 : Reads (some (fmt.write a)) fmt.read a := by
    intro bs hb rest
    cases hb
    exact fmt.roundtrip a rest
  have h2 : Reads (wAll (fun f : Nat × Nat => Wr.seq (mbWrite f.1) (mbWrite f.2)) finals) (rAll (fun m => Rd.bind mbRead fun k => Rd.bind mbRead fun v => Rd.pure (putNat m k v)) []) finals := by
    have := reads_all (f := fun f : Nat × Nat => Wr.seq (mbWrite f.1) (mbWrite f.2)) (step := fun m => Rd.bind mbRead fun k => Rd.bind mbRead fun v => Rd.pure (putNat m k v))
      (g := fun m c => putNat m c.1 c.2) finals [] (fun s x _ => Reads.seq (reads_mb x.1) ((reads_mb x.2).map fun v => putNat s x.1 v))
    rwa [fold_putNat _ _ (by simpa using hf), List.nil_append] at this
  have h3 : Reads (wAll (fun f : Text × Text => Wr.seq (wText f.1) (Wr.seq (mbWrite 0) (wText f.2))) td.attrs) (rAll (rAttr (decide (([] : Text) = []))) []) td.attrs := by
    have := reads_all (f := fun f : Text × Text => Wr.seq (wText f.1) (Wr.seq (mbWrite 0) (wText f.2))) (step := rAttr (decide (([] : Text) = [])))
      (g := fun m c => put m c.1 c.2) td.attrs [] (fun s x _ => by
        refine Reads.seq (reads_text x.1) (Reads.seq (reads_mb 0) ?_)
        have h := (reads_text x.2).map (fun v => put s x.1 (if decide (([] : Text) = []) = false ∧ x.1 = t!"chname" then t!"(\\{([^/]+)\\/)" else v))
        rw [if_neg (by simp)] at h
        exact h)
    rwa [fold_append _ _ (by simpa using ha), List.nil_append] at this
  have h4 : Reads (wAll (fun f : Text × Text => Wr.seq (wText f.1) (wText f.2)) td.vars) (rAll (fun m => Rd.bind rText fun k => Rd.bind rText fun v => Rd.pure (put m k v)) []) td.vars := by
    have := reads_all (f := fun f : Text × Text => Wr.seq (wText f.1) (wText f.2)) (step := fun m => Rd.bind rText fun k => Rd.bind rText fun v => Rd.pure (put m k v))
      (g := fun m c => put m c.1 c.2) td.vars [] (fun s x _ => Reads.seq (reads_text x.1) ((reads_text x.2).map fun v => put s x.1 v))
    rwa [fold_append _ _ (by simpa using hv), List.nil_append] at this
  have h5 : Reads (wAll (fun f : Text × Nat => Wr.seq (wText f.1) (mbWrite f.2)) td.macros) (rAll (fun m => Rd.bind rText fun k => Rd.bind mbRead fun v => Rd.pure (put m k v)) []) td.macros := by
    have := reads_all (f := fun f : Text × Nat => Wr.seq (wText f.1) (mbWrite f.2)) (step := fun m => Rd.bind rText fun k => Rd.bind mbRead fun v => Rd.pure (put m k v))
      (g := fun m c => put m c.1 c.2) td.macros [] (fun s x _ => Reads.seq (reads_text x.1) ((reads_mb x.2).map fun v => put s x.1 v))
    rwa [fold_append _ _ (by simpa using hm), List.nil_append] at this
  have h6 := reads_all (f := fun f : Text × List Text => Wr.seq (wText f.1) (wAll wText f.2)) (step := fun s => Rd.bind rText fun k => rAll (rItem lower k) s)
      (g := fun s c => c.2.foldl (fun s v => (listAdd s.1 c.1 v, listAdd s.2 c.1 (lower v))) s) td.lists ([], [])
      (fun s x _ => Reads.seq (reads_text x.1) (reads_all x.2 s fun s v _ => (reads_text v).map fun v => (listAdd s.1 x.1 v, listAdd s.2 x.1 (lower v))))
  have e6 : td.lists.foldl (fun s c => c.2.foldl (fun s v => (listAdd s.1 c.1 v, listAdd s.2 c.1 (lower v))) s) (([], []) : List (Text × List Text) × List (Text × List Text)) =
      (td.lists.foldl (fun m c => c.2.foldl (fun m v => listAdd m c.1 v) m) [], td.lists.foldl (fun m c => c.2.foldl (fun m v => listAdd m c.1 (lower v)) m) []) := by
    have h := foldl_pair (fun m c => c.2.foldl (fun m v => listAdd m c.1 v) m) (fun m c => c.2.foldl (fun m v => listAdd m c.1 (lower v)) m) td.lists
      (([], []) : List (Text × List Text) × List (Text × List Text))
    simp only [] at h
    rw [← h]
    congr 1
    funext s c
    exact foldl_pair (fun m v => listAdd m c.1 v) (fun m v => listAdd m c.1 (lower v)) c.2 s
  rw [e6] at h6
  exact Reads.seq h1 (Reads.seq h2 (Reads.seq (reads_text []) (Reads.seq h3 (Reads.seq h4 (Reads.seq h5 (h6.map fun ls => _))))))

/-- **C84 (compiled file).**  What the compiler has written for a file of rules, a transfer program reads completely; its tables say what the file of rules says, the variables begin with the
values of the file, and the items of the lists are also there in lower case. -/
theorem C84_compiled (env : Env) (f : File) (root : Tree) (w : Writes f root) (td : TD) (h : parse env root.events = .ok td) {A : Type} (fmt : Format A) (a : A)
    (finals : List (Nat × Nat)) (hf : (finals.map (·.1)).Nodup) (lower : Text → Text) (bs : Serial.Bytes) (hw : write fmt a finals td = some bs) (rest : Serial.Bytes) :
    ∃ d, read fmt lower (bs ++ rest) = some (d, rest) ∧ d.auto = a ∧ d.finals = finals ∧ Says f root d.attrs d.vars d.lists d.macros ∧
      (∀ k v, find d.defaults k = some v ↔ Last f.vars k v) ∧ (∀ k v, v ∈ (find d.lower k).getD [] ↔ ∃ l u, (k, l) ∈ f.lists ∧ u ∈ l ∧ v = lower u) := by
  obtain ⟨h1, h2⟩ := parse_tables env w
  by_cases hg : f.Good env
  case neg => rw [h2 hg] at h; cases h
  obtain ⟨rst, h3, -⟩ := h1 hg
  rw [h3] at h
  cases h
  have hs := tables_says env w hg.1
  have na : (keys (tables env f).attrs).Nodup := nodup_fold _ _ fixed_nodup
  have nv : (keys (tables env f).vars).Nodup := nodup_fold _ _ (by simp [keys])
  have nm : (keys (tables env f).macros).Nodup := by
    show ((numbered 0 f.macros).map (·.1)).Nodup
    rw [numbered_keys]; exact hg.1
  have nl : (keys (tables env f).lists).Nodup := nodup_listsFold f.lists (fun v => v) [] (by simp [keys])
  have hl : ∀ k v, (∃ l, (k, l) ∈ (tables env f).lists ∧ v ∈ l) ↔ ∃ l, (k, l) ∈ f.lists ∧ v ∈ l := by
    intro k v
    rw [← hs.lists]
    constructor
    · rintro ⟨l, hl, hv⟩
      rw [(mem_find nl k l).1 hl]
      exact hv
    · intro hv
      cases hfl : find (tables env f).lists k with
      | none => rw [hfl] at hv; simp at hv
      | some l => exact ⟨l, (mem_find nl k l).2 hfl, by rw [hfl] at hv; exact hv⟩
  refine ⟨_, read_write fmt a finals _ lower hf na nv nm bs hw rest, rfl, rfl, ⟨hs.vars, hs.parts, fun k v => ?_, hs.macros⟩, hs.vars, fun k v => ?_⟩
  · rw [← hl]
    have := mem_listsFold (tables env f).lists (fun v => v) [] k v
    simp only [] at this ⊢
    rw [this]
    simp [find_nil]
  · have := mem_listsFold (tables env f).lists lower [] k v
    simp only [] at this ⊢
    rw [this]
    simp only [find_nil, Option.getD_none, List.not_mem_nil, or_false]
    constructor
    · rintro ⟨l, h1, u, h2, rfl⟩
      obtain ⟨l', h3, h4⟩ := (hl k u).1 ⟨l, h1, h2⟩
      exact ⟨l', u, h3, h4, rfl⟩
    · rintro ⟨l, u, h1, h2, rfl⟩
      obtain ⟨l', h3, h4⟩ := (hl k u).2 ⟨l, h1, h2⟩
      exact ⟨l', h3, u, h4, rfl⟩

end Verif.Trx
