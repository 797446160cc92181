import Verif.Base
/-!
# UTF-8, as the deformatters see it

`utf8::is_valid` of the UTF8-CPP library is not part of the repository.  It is taken to accept exactly the byte strings that
are a concatenation of encodings of Unicode scalar values, which is what Lean's `ByteArray.validateUTF8` decides
(`isValid_iff`).  Old versions of the library also reject U+FFFE and U+FFFF.
-/
namespace Verif.Format

abbrev Bytes := List UInt8

/-- The ASCII bytes of a string literal. -/
def bytes (s : String) : Bytes := s.toList.map (fun c => UInt8.ofNat c.toNat)

/-- The UTF-8 encoding of one code point. -/
def enc (c : Char) : Bytes := String.utf8EncodeChar c

/-- The UTF-8 encoding of a text. -/
def encs (cs : List Char) : Bytes := cs.flatMap enc

/-- `utf8::is_valid` (used at deformat.xsl:578 and 642); see the head of the file. -/
def isValid (bs : Bytes) : Bool := bs.toByteArray.validateUTF8

theorem isValid_iff (bs : Bytes) : isValid bs = true ↔ ∃ cs, bs = encs cs := by
  unfold isValid
  rw [ByteArray.validateUTF8_eq_true_iff]
  constructor
  · rintro ⟨cs, h⟩
    refine ⟨cs, ?_⟩
    have h2 : bs.toByteArray.data = (List.utf8Encode cs).data := by rw [h]
    simp [List.utf8Encode] at h2
    exact h2
  · rintro ⟨cs, rfl⟩
    exact ⟨cs, by simp [List.utf8Encode, encs]; rfl⟩

/-- A continuation byte. -/
def cont (b : UInt8) : Prop := 128 ≤ b.toNat ∧ b.toNat < 192

/-- How many continuation bytes follow a first byte. -/
def more (b : UInt8) : Nat := if b.toNat < 128 then 0 else if b.toNat < 224 then 1 else if b.toNat < 240 then 2 else 3

theorem enc_shape (c : Char) :
    ∃ h t, enc c = h :: t ∧ (∀ b ∈ t, cont b) ∧ t.length = more h ∧ ¬ cont h := by
  have hv : c.val.toNat < 1114112 := by
    have := c.valid
    unfold UInt32.isValidChar Nat.isValidChar at this
    omega
  unfold enc String.utf8EncodeChar
  generalize c.val.toNat = v at hv
  simp only
  split
  · refine ⟨_, _, rfl, by simp, ?_, ?_⟩
    · simp [more]; omega
    · simp [cont]; omega
  · split
    · refine ⟨_, _, rfl, ?_, ?_, ?_⟩
      · simp [cont]; omega
      · simp [more]; rw [if_neg (by omega), if_pos (by omega)]
      · simp [cont]; omega
    · split
      · refine ⟨_, _, rfl, ?_, ?_, ?_⟩
        · simp [cont]; omega
        · simp [more]; rw [if_neg (by omega), if_neg (by omega), if_pos (by omega)]
        · simp [cont]; omega
      · refine ⟨_, _, rfl, ?_, ?_, ?_⟩
        · simp [cont]; omega
        · simp [more]; rw [if_neg (by omega), if_neg (by omega), if_neg (by omega)]
        · simp [cont]; omega

theorem isValid_nil : isValid [] = true := (isValid_iff _).2 ⟨[], rfl⟩

theorem isValid_append {a b : Bytes} (ha : isValid a = true) (hb : isValid b = true) : isValid (a ++ b) = true := by
  rw [isValid_iff] at *
  obtain ⟨x, rfl⟩ := ha
  obtain ⟨y, rfl⟩ := hb
  exact ⟨x ++ y, by simp [encs]⟩

/-- A byte below 128 is a character. -/
theorem isValid_ascii (b : UInt8) (h : b.toNat < 128) : isValid [b] = true := by
  rw [isValid_iff]
  refine ⟨[Char.ofNat b.toNat], ?_⟩
  have hv : (Char.ofNat b.toNat).val.toNat = b.toNat := by
    have : b.toNat.isValidChar := by unfold Nat.isValidChar; omega
    simp [Char.ofNat, this, Char.ofNatAux]
  simp only [encs, List.flatMap_cons, List.flatMap_nil, List.append_nil, enc, String.utf8EncodeChar, hv]
  rw [if_pos (by omega)]
  simp

/-- A valid text can be cut before any byte that is not a continuation byte. -/
theorem isValid_split {a b : Bytes} (h : isValid (a ++ b) = true) (hb : ∀ x ∈ b.head?, ¬ cont x) :
    isValid a = true ∧ isValid b = true := by
  rw [isValid_iff] at h
  obtain ⟨cs, h⟩ := h
  induction cs generalizing a with
  | nil =>
    simp [encs] at h
    simp [h, isValid_nil]
  | cons c cs ih =>
    cases a with
    | nil => exact ⟨isValid_nil, (isValid_iff _).2 ⟨c :: cs, by simpa using h⟩⟩
    | cons x a =>
      have h2 : (x :: a) ++ b = enc c ++ encs cs := by simpa [encs] using h
      rw [List.append_eq_append_iff] at h2
      rcases h2 with ⟨m, hm, hb2⟩ | ⟨m, hm, hb2⟩
      · -- enc c = x :: a ++ m, b = m ++ encs cs
        cases m with
        | nil =>
          refine ⟨(isValid_iff _).2 ⟨[c], ?_⟩, (isValid_iff _).2 ⟨cs, by simpa using hb2⟩⟩
          simp [encs, hm]
        | cons y m =>
          exfalso
          obtain ⟨h0, t, he, ht, _, _⟩ := enc_shape c
          rw [he] at hm
          simp at hm
          have : cont y := ht y (by rw [hm.2]; simp)
          exact hb y (by rw [hb2]; simp) this
      · -- x :: a = enc c ++ m
        have := ih (a := m) hb2.symm
        refine ⟨?_, this.2⟩
        rw [hm]
        exact isValid_append ((isValid_iff _).2 ⟨[c], by simp [encs]⟩) this.1

/-- What is left of a valid text after a valid part is valid. -/
theorem isValid_cancel {a b : Bytes} (h : isValid (a ++ b) = true) (ha : isValid a = true) : isValid b = true := by
  rw [isValid_iff] at ha
  obtain ⟨cs, rfl⟩ := ha
  induction cs with
  | nil => simpa [encs] using h
  | cons c cs ih =>
    apply ih
    rw [isValid_iff] at h
    obtain ⟨ds, h⟩ := h
    cases ds with
    | nil =>
      exfalso
      obtain ⟨h0, t, he, _⟩ := enc_shape c
      simp [encs, he] at h
    | cons d ds =>
      have h2 : enc c ++ (encs cs ++ b) = enc d ++ encs ds := by simpa [encs] using h
      obtain ⟨h0, t, he, _, hl, _⟩ := enc_shape c
      obtain ⟨h1, t1, he1, _, hl1, _⟩ := enc_shape d
      have hh : h0 = h1 := by rw [he, he1] at h2; simp at h2; exact h2.1
      have := List.append_inj h2 (by rw [he, he1]; simp [hl, hl1, hh])
      exact (isValid_iff _).2 ⟨ds, this.2⟩

theorem not_cont_ascii {b : UInt8} (h : b.toNat < 128) : ¬ cont b := fun hc => by have := hc.1; omega

end Verif.Format
