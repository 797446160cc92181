import Verif.Base
/-!
# The preferences of the `apertium` command

`apertium/apertium-header.sh`: `invert_setvar`, `apply_invert_setvars`, `setvar_wrap`, `setvar_unwrap` and `run_mode_wblank`.
The shell's `read`, `echo` and `$(…)` and the `awk` programs are modelled for texts without backslashes (`awk -v` would read those as escapes).
-/
namespace Verif.Setvar

def NUL : Char := Char.ofNat 0

/-- `split(val, ar, ":")` of awk: no fields for the empty text (apertium-header.sh:95). -/
def fields (val : Text) : List Text := if val = [] then [] else val.splitOn ':'

/-- The END value of `keep` (apertium-header.sh:95-98). -/
def keep (skip : List Text) : Text → List Text → Text
  | k, [] => k
  | k, x :: xs => if x ∈ skip then keep skip k xs else keep skip ((if k = [] then [] else k ++ [':']) ++ x) xs

/-- `invert_setvar` (apertium-header.sh:85-99).  What `xmllint` and `grep` find, the names of the options of the preference, is given. -/
def invertSetvar (ids : List Text) (val : Text) : Text := keep (fields val) [] ids

/-- What `read` puts in the last variable (`IFS='='`): one `=` at the end is dropped if it is the only one (apertium-header.sh:117, bash's `read`). -/
def lastVar (r : Text) : Text := if r.getLast? = some '=' ∧ '=' ∉ r.dropLast then r.dropLast else r

/-- `IFS='=' read -r -d',' key value`, for one item (apertium-header.sh:117). -/
def readItem (item : Text) : Text × Text := (item.takeWhile (· ≠ '='), lastVar ((item.dropWhile (· ≠ '=')).drop 1))

/-- The `case` (apertium-header.sh:121-126). -/
def valueOf (opts : Text → List Text) (key value : Text) : Text :=
  match value with
  | [] => []
  | '-' :: v => '=' :: invertSetvar (opts key) v
  | v => '=' :: v

/-- The loop (apertium-header.sh:117-127). -/
def loop (opts : Text → List Text) : Text → List Text → Text
  | new, [] => new
  | new, item :: items =>
    let kv := readItem item
    if kv.1 = [] then loop opts new items
    else loop opts ((if new = [] then [] else new ++ [',']) ++ kv.1 ++ valueOf opts kv.1 kv.2) items

/-- `echo "$x"`: bash's `echo` takes `-n`, `-e`, `-E` and combinations for options (apertium-header.sh:112, 128). -/
def echo (x : Text) : Text :=
  match x with
  | '-' :: c :: cs => if ∀ d ∈ c :: cs, d = 'n' ∨ d = 'e' ∨ d = 'E' then [] else x
  | _ => x

/-- `$(…)` drops the newlines at the end (apertium-header.sh:149). -/
def subst (x : Text) : Text := (x.reverse.dropWhile (· = '\n')).reverse

/-- `AP_SETVAR="$(apply_invert_setvars)"`; `prefs` is `none` when there is no file of preferences (apertium-header.sh:101-129, 149). -/
def applyInvert (prefs : Option (Text → List Text)) (setvar : Text) : Text :=
  match prefs with
  | none => subst (echo setvar)
  | some opts => subst (echo (loop opts [] (setvar.splitOn ',')))

/-- `var` as a condition of awk: not empty and not the number zero (apertium-header.sh:134, 136, 144).  Only `0`, `00`, … are taken as spellings of zero here. -/
def isSet (v : Text) : Bool := !v.all (· = '0')

/-- The start of the command (apertium-header.sh:134, 144). -/
def pre : Text := t!"[<STREAMCMD:SETVAR:"

/-- `printf "[<STREAMCMD:SETVAR:%s>]", var` (apertium-header.sh:134, 136). -/
def cmd (v : Text) : Text := pre ++ v ++ t!">]"

/-- `RS="\0|\n"`: the records with what ended them, `RT`; a text that ends with a separator has no empty record after it (apertium-header.sh:133, 143). -/
def records : Text → List (Text × Text)
  | [] => []
  | c :: t =>
    if c = NUL ∨ c = '\n' then ([], [c]) :: records t
    else match records t with
      | [] => [([c], [])]
      | (r, e) :: rs => (c :: r, e) :: rs

/-- The three rules of `setvar_wrap`, for one record (apertium-header.sh:134-136). -/
def wrapRec (v : Text) (first : Bool) (x : Text × Text) : Text :=
  (if first = true ∧ isSet v = true then cmd v else []) ++ (x.1 ++ x.2) ++ (if x.2 = [NUL] ∧ isSet v = true then cmd v else [])

def wrapRecs (v : Text) : Bool → List (Text × Text) → Text
  | _, [] => []
  | first, x :: xs => wrapRec v first x ++ wrapRecs v false xs

/-- `setvar_wrap` (apertium-header.sh:131-138). -/
def wrap (v s : Text) : Text := wrapRecs v true (records s)

/-- `\[<STREAMCMD:SETVAR:[^>]*>]` here: what is left after it (apertium-header.sh:144). -/
def matchHere (s : Text) : Option Text :=
  if s.take pre.length = pre then
    match (s.drop pre.length).dropWhile (· ≠ '>') with
    | '>' :: ']' :: r => some r
    | _ => none
  else none

theorem matchHere_length (s r : Text) (h : matchHere s = some r) : r.length < s.length := by
  unfold matchHere at h
  split at h
  · split at h
    · next q hd =>
      cases h
      have h1 : ((s.drop pre.length).dropWhile (· ≠ '>')).length ≤ (s.drop pre.length).length := (List.dropWhile_suffix _).length_le
      rw [hd] at h1
      simp only [List.length_cons, List.length_drop] at h1
      omega
    · cases h
  · cases h

/-- `gsub(…, "")` (apertium-header.sh:144). -/
def strip (s : Text) : Text :=
  match s with
  | [] => []
  | c :: t =>
    match _h : matchHere (c :: t) with
    | some r => strip r
    | none => c :: strip t
termination_by s.length
decreasing_by
  · exact matchHere_length _ _ (by assumption)
  · simp

/-- `setvar_unwrap` (apertium-header.sh:139-147). -/
def unwrap (v s : Text) : Text := (records s).flatMap fun x => (if isSet v = true then strip x.1 else x.1) ++ x.2

/-- `run_mode_wblank` with a mode that is any function of texts (apertium-header.sh:148-156). -/
def runMode (prefs : Option (Text → List Text)) (setvar : Text) (mode : Text → Text) (s : Text) : Text :=
  unwrap (applyInvert prefs setvar) (mode (wrap (applyInvert prefs setvar) s))

end Verif.Setvar
