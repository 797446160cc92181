import Verif.Format.Formats
import Verif.Format.DeProofs
/-!
# The formats of the repository meet the conditions of the theorems
-/
namespace Verif.Format

/-- A class without bytes above 127. -/
def asciiOnly (p : UInt8 → Bool) : Bool := (List.range 128).all (fun i => !p (UInt8.ofNat (i + 128)))

theorem asciiOnly_sound {p : UInt8 → Bool} (h : asciiOnly p = true) (b : UInt8) (hb : p b = true) : b.toNat < 128 := by
  apply Decidable.byContradiction
  intro hn
  have hlt : b.toNat < 256 := b.toNat_lt
  unfold asciiOnly at h
  rw [List.all_eq_true] at h
  have h1 := h (b.toNat - 128) (by rw [List.mem_range]; omega)
  rw [show b.toNat - 128 + 128 = b.toNat from by omega, UInt8.ofNat_toNat, hb] at h1
  cases h1

/-- A class with all the bytes above 127. -/
def allHigh (p : UInt8 → Bool) : Bool := (List.range 128).all (fun i => p (UInt8.ofNat (i + 128)))

theorem allHigh_sound {p : UInt8 → Bool} (h : allHigh p = true) (b : UInt8) (hb : 128 ≤ b.toNat) : p b = true := by
  have hlt : b.toNat < 256 := b.toNat_lt
  unfold allHigh at h
  rw [List.all_eq_true] at h
  have h1 := h (b.toNat - 128) (by rw [List.mem_range]; omega)
  rwa [show b.toNat - 128 + 128 = b.toNat from by omega, UInt8.ofNat_toNat] at h1

/-- Every byte above 127 is a match by itself. -/
def Re.single : Re → Bool
  | .none => false
  | .eps => false
  | .cls p => allHigh p
  | .seq a b => (a.nullable && b.single) || (a.single && b.nullable)
  | .alt a b => a.single || b.single
  | .star a => a.single

theorem Re.single_sound {r : Re} (h : r.single = true) (b : UInt8) (hb : 128 ≤ b.toNat) : r.Matches [b] := by
  induction r with
  | none => cases h
  | eps => cases h
  | cls p => exact .cls (allHigh_sound h b hb)
  | seq x y ihx ihy =>
    simp only [single, Bool.or_eq_true, Bool.and_eq_true] at h
    rcases h with ⟨h1, h2⟩ | ⟨h1, h2⟩
    · exact .seq (s := []) ((nullable_iff x).1 h1) (ihy h2)
    · exact .seq (t := []) (ihx h1) ((nullable_iff y).1 h2)
  | alt x y ihx ihy =>
    simp only [single, Bool.or_eq_true] at h
    rcases h with h | h
    · exact .altL (ihx h)
    · exact .altR (ihy h)
  | star x ih => simpa using Matches.star1 (ih h) .star0

/-- A match that begins with a byte above 127 is still one with another such byte before it. -/
def Re.startOk : Re → Bool
  | .none => true
  | .eps => true
  | .cls p => asciiOnly p
  | .seq a b => a.startOk && (!a.nullable || a.single || b.startOk)
  | .alt a b => a.startOk && b.startOk
  | .star a => a.single || a.startOk

/-- A match that ends with a byte above 127 is still one with another such byte after it. -/
def Re.stopOk : Re → Bool
  | .none => true
  | .eps => true
  | .cls p => asciiOnly p
  | .seq a b => b.stopOk && (!b.nullable || b.single || a.stopOk)
  | .alt a b => a.stopOk && b.stopOk
  | .star a => a.single || a.stopOk

theorem Re.startOk_sound {r : Re} {w : Bytes} (hm : r.Matches w) (h : r.startOk = true) :
    ∀ c s, w = c :: s → 128 ≤ c.toNat → ∀ b : UInt8, 128 ≤ b.toNat → r.Matches (b :: w) := by
  induction hm with
  | eps => intro c s hw; cases hw
  | cls hp =>
    intro c s hw hc
    simp only [List.cons.injEq] at hw
    have := asciiOnly_sound h _ hp
    rw [hw.1] at this
    omega
  | @seq x y u v h1 h2 ih1 ih2 =>
    intro c s hw hc b hb
    simp only [startOk, Bool.and_eq_true, Bool.or_eq_true, Bool.not_eq_true'] at h
    cases u with
    | nil =>
      have hn := (nullable_iff x).2 h1
      rcases h.2 with (h3 | h3) | h3
      · rw [hn] at h3; cases h3
      · exact .seq (s := [b]) (single_sound h3 b hb) h2
      · exact .seq (s := []) h1 (ih2 h3 c s (by simpa using hw) hc b hb)
    | cons z u =>
      simp only [List.cons_append, List.cons.injEq] at hw
      exact .seq (s := b :: z :: u) (ih1 h.1 z u rfl (by rw [hw.1]; exact hc) b hb) h2
  | altL _ ih =>
    intro c s hw hc b hb
    simp only [startOk, Bool.and_eq_true] at h; exact .altL (ih h.1 c s hw hc b hb)
  | altR _ ih =>
    intro c s hw hc b hb
    simp only [startOk, Bool.and_eq_true] at h; exact .altR (ih h.2 c s hw hc b hb)
  | star0 => intro c s hw; cases hw
  | @star1 x u v h1 h2 ih1 ih2 =>
    intro c s hw hc b hb
    have h0 := h
    simp only [startOk, Bool.or_eq_true] at h
    rcases h with h3 | h3
    · exact .star1 (s := [b]) (single_sound h3 b hb) (.star1 h1 h2)
    · cases u with
      | nil => exact ih2 h0 c s (by simpa using hw) hc b hb
      | cons z u =>
        simp only [List.cons_append, List.cons.injEq] at hw
        exact .star1 (s := b :: z :: u) (ih1 h3 z u rfl (by rw [hw.1]; exact hc) b hb) h2

theorem Re.stopOk_sound {r : Re} {w : Bytes} (hm : r.Matches w) (h : r.stopOk = true) :
    ∀ s c, w = s ++ [c] → 128 ≤ c.toNat → ∀ b : UInt8, 128 ≤ b.toNat → r.Matches (w ++ [b]) := by
  induction hm with
  | eps => intro s c hw; simp at hw
  | cls hp =>
    intro s c hw hc
    have h2 := congrArg List.getLast? hw
    simp at h2
    have := asciiOnly_sound h _ hp
    rw [h2] at this
    omega
  | @seq x y u v h1 h2 ih1 ih2 =>
    intro s c hw hc b hb
    simp only [stopOk, Bool.and_eq_true, Bool.or_eq_true, Bool.not_eq_true'] at h
    rw [List.append_assoc]
    rcases List.eq_nil_or_concat v with hv | ⟨v', z, hv⟩
    · subst hv
      have hn := (nullable_iff y).2 h2
      rcases h.2 with (h3 | h3) | h3
      · rw [hn] at h3; cases h3
      · exact .seq (t := [b]) h1 (single_sound h3 b hb)
      · have := ih1 h3 s c (by simpa using hw) hc b hb
        simpa using Matches.seq this h2
    · rw [List.concat_eq_append] at hv
      have h3 := congrArg List.getLast? hw
      rw [hv] at h3
      simp at h3
      exact .seq h1 (ih2 h.1 v' z hv (by rw [h3]; exact hc) b hb)
  | altL _ ih =>
    intro c s hw hc b hb
    simp only [stopOk, Bool.and_eq_true] at h; exact .altL (ih h.1 c s hw hc b hb)
  | altR _ ih =>
    intro c s hw hc b hb
    simp only [stopOk, Bool.and_eq_true] at h; exact .altR (ih h.2 c s hw hc b hb)
  | star0 => intro s c hw; simp at hw
  | @star1 x u v h1 h2 ih1 ih2 =>
    intro s c hw hc b hb
    have h0 := h
    rw [List.append_assoc]
    rcases List.eq_nil_or_concat v with hv | ⟨v', z, hv⟩
    · subst hv
      simp only [stopOk, Bool.or_eq_true] at h
      rcases h with h3 | h3
      · refine .star1 h1 ?_
        simpa using Matches.star1 (single_sound h3 b hb) .star0
      · have := ih1 h3 s c (by simpa using hw) hc b hb
        simpa using Matches.star1 this .star0
    · rw [List.concat_eq_append] at hv
      have h3 := congrArg List.getLast? hw
      rw [hv] at h3
      simp at h3
      exact .star1 h1 (ih2 h0 v' z hv (by rw [h3]; exact hc) b hb)

def Re.wholeOk (r : Re) : Bool := r.startOk && r.stopOk

theorem Re.wholeOk_sound {r : Re} (h : r.wholeOk = true) : Whole r := by
  simp only [wholeOk, Bool.and_eq_true] at h
  refine ⟨fun c s hm hc b hb => startOk_sound hm h.1 c s rfl hc b hb, fun s c hm hc b hb => ?_⟩
  simpa using stopOk_sound hm h.2 s c rfl hc b hb

/-- `Fmt.Plain`, by computation. -/
def Fmt.plainOk (f : Fmt) : Bool :=
  f.escape 0x5B && f.escape 0x5D && f.escape 0x5C && !f.escape 0x20 && !f.escape 0x2E && f.space 0x0A && asciiOnly f.escape && asciiOnly f.space &&
    f.repls.all (fun p => p.table.all (fun q => q.2.1.all (fun b => !f.escape b && decide (b ≠ 0)) &&
      (!q.2.2 || decide (q.2.1.length ≠ 1 ∨ q.1 = q.2.1)))) && decide (1 ≤ f.large) &&
    f.rules.all (fun r => r.re.wholeOk && (r.fin.getD .none).wholeOk) && f.repls.all (fun p => p.re.wholeOk)

theorem Fmt.plainOk_sound {f : Fmt} (h : f.plainOk = true) : f.Plain := by
  unfold plainOk at h
  simp only [Bool.and_eq_true, List.all_eq_true, Bool.not_eq_true', decide_eq_true_eq, Bool.or_eq_true] at h
  obtain ⟨⟨⟨⟨⟨⟨⟨⟨⟨⟨⟨h1, h2⟩, h3⟩, h4⟩, hd⟩, h5⟩, h6⟩, h7⟩, h8⟩, h9⟩, h11⟩, h12⟩ := h
  refine ⟨h1, h2, h3, h4, hd, h5, asciiOnly_sound h6, asciiOnly_sound h7, ?_, fun p hp => Re.wholeOk_sound (h12 p hp), ?_, h9⟩
  · intro r hr
    refine ⟨Re.wholeOk_sound (h11 r hr).1, fun t ht => ?_⟩
    have := (h11 r hr).2
    rw [ht] at this
    exact Re.wholeOk_sound this
  intro p hp q hq
  have h10 := h8 p hp q hq
  refine ⟨h10.1, ?_⟩
  intro hq2
  rcases h10.2 with h | h
  · rw [hq2] at h; cases h
  · exact h

theorem txt_plain : txt.Plain := Fmt.plainOk_sound (by decide +kernel)
theorem htmlNoent_plain : htmlNoent.Plain := Fmt.plainOk_sound (by decide +kernel)
theorem html_plain : html.Plain := Fmt.plainOk_sound (by decide +kernel)
theorem htmlAlt_plain : htmlAlt.Plain := Fmt.plainOk_sound (by decide +kernel)
theorem latex_plain : latex.Plain := Fmt.plainOk_sound (by decide +kernel)
theorem mediawiki_plain : mediawiki.Plain := Fmt.plainOk_sound (by decide +kernel)
theorem odt_plain : odt.Plain := Fmt.plainOk_sound (by decide +kernel)
theorem pptx_plain : pptx.Plain := Fmt.plainOk_sound (by decide +kernel)
theorem wxml_plain : wxml.Plain := Fmt.plainOk_sound (by decide +kernel)
theorem xlsx_plain : xlsx.Plain := Fmt.plainOk_sound (by decide +kernel)
theorem xpresstag_plain : xpresstag.Plain := Fmt.plainOk_sound (by decide +kernel)
theorem rtf_plain : rtf.Plain := Fmt.plainOk_sound (by decide +kernel)

/-- The twelve formats of the repository. -/
def formats : List Fmt := [txt, htmlNoent, html, htmlAlt, latex, mediawiki, odt, pptx, wxml, xlsx, xpresstag, rtf]

theorem formats_plain : ∀ f ∈ formats, f.Plain := by
  intro f hf
  simp only [formats, List.mem_cons, List.not_mem_nil, or_false] at hf
  rcases hf with rfl | rfl | rfl | rfl | rfl | rfl | rfl | rfl | rfl | rfl | rfl | rfl
  · exact txt_plain
  · exact htmlNoent_plain
  · exact html_plain
  · exact htmlAlt_plain
  · exact latex_plain
  · exact mediawiki_plain
  · exact odt_plain
  · exact pptx_plain
  · exact wxml_plain
  · exact xlsx_plain
  · exact xpresstag_plain
  · exact rtf_plain

end Verif.Format
