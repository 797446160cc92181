import Verif.Base
/-!
# Model of the compilation of `def-attr` (apertium/transfer_regex.cc)

Characters are code points here; in the code a regular expression is a UTF-16 string, to which `ret += root->c` adds only
the low half of a code point above U+FFFF (transfer_regex.cc:57,74), so the model is about code points up to U+FFFF.
-/
namespace Verif.Regex

/-- `TrieNode` (transfer_regex.cc:3-7). -/
inductive Trie where
  | node (c : Char) (fin : Bool) (next : List Trie)

def Trie.chr : Trie → Char
  | .node c _ _ => c

/-- The nodes that `add_char` makes for the rest of an entry when there is no child for the next character
(transfer_regex.cc:17-21). -/
def chain : Char → Text → Trie
  | x, [] => .node x true []
  | x, y :: p => .node x false [chain y p]

mutual
/-- The walk of `add_entry` below a node (transfer_regex.cc:27-43), on the characters it passes to `add_char`. -/
def addPath : Trie → Text → Trie
  | .node c _ nx, [] => .node c true nx
  | .node c e nx, x :: p => .node c e (addChild nx x p)
/-- `add_char` (transfer_regex.cc:9-22): the first child with that character, or a new one at the end; and the rest of the walk. -/
def addChild : List Trie → Char → Text → List Trie
  | [], x, p => [chain x p]
  | .node c e nx :: ts, x, p => if c = x then addPath (.node c e nx) p :: ts else .node c e nx :: addChild ts x p
end

/-- The characters that `add_entry` passes to `add_char` (transfer_regex.cc:27-42). -/
def pathOf : Bool → Text → Text
  | _, [] => []
  | true, c :: s => c :: pathOf false s
  | false, c :: s =>
    if c = '\\' then pathOf true s
    else if c = '.' then '>' :: '<' :: pathOf false s
    else c :: pathOf false s

/-- transfer_regex.cc:55-58 and 73-76. -/
def esc (c : Char) : Text := if c = '+' ∨ c = '*' ∨ c = '?' ∨ c = '.' then ['\\', c] else [c]

/-- `it->end && it->next.empty()` (transfer_regex.cc:54). -/
def Trie.isLeaf : Trie → Bool
  | .node _ e nx => e && nx.isEmpty

/-- The characters collected in `single`. -/
def leaves (ts : List Trie) : List Char := (ts.filter (·.isLeaf)).map (·.chr)

/-- The group made of `single` (transfer_regex.cc:64-71). -/
def singleGroup : List Char → List Text
  | [] => []
  | [c] => [esc c]
  | cs => ['[' :: cs.flatMap esc ++ [']']]

/-- The text after the character of a node (transfer_regex.cc:77-101). -/
def finish (e : Bool) : List Text → Text
  | [] => []
  | [g] =>
    (if e = true ∧ g.length > 1 ∧ g.head? ≠ some '(' then ['(', '?', ':'] ++ g ++ [')'] else g) ++ (if e then ['?'] else [])
  | gs => ['(', '?', ':'] ++ List.intercalate ['|'] gs ++ [')'] ++ (if e then ['?'] else [])

mutual
/-- `unbuildTrie` (transfer_regex.cc:46-101). -/
def unbuild : Trie → Text
  | .node c e nx => esc c ++ finish e (unbuildInner nx ++ singleGroup (leaves nx))
/-- The groups of the children that are not collected in `single` (transfer_regex.cc:61). -/
def unbuildInner : List Trie → List Text
  | [] => []
  | t :: ts => if t.isLeaf then unbuildInner ts else unbuild t :: unbuildInner ts
end

/-- The trie of the entries (transfer_regex.cc:106-114). -/
def trieOf (options : List Text) : Trie := options.foldl (fun t o => addPath t (pathOf false o)) (.node '<' false [])

/-- `optimize_regex` (transfer_regex.cc:103-121). -/
def optimizeRegex (options : List Text) : Text := ['('] ++ unbuild (trieOf options) ++ ['>', ')']

end Verif.Regex
