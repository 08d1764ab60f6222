import Verif.Model.Basic
/-
  Model of `impl ToString for Json` and the string escaping functions.
-/
namespace RJ

/-- `HEX_TABLE[u & 0b1111]`, /repo/src/lib.rs:636, 644. -/
def hexDigit (u : Nat) : Char :=
  ['0', '1', '2', '3', '4', '5', '6', '7', '8', '9', 'A', 'B', 'C', 'D', 'E', 'F'].getD (u % 16) '0'

/-- The `while u > 0` loop of `hex`, /repo/src/lib.rs:643-646: hex digits, least significant first.
The loop shifts a `usize` (64 bit) right by 4, so 16 rounds suffice; the first argument counts them. -/
def hexLoop : Nat → Nat → Str
  | 0, _ => []
  | n + 1, u => if u = 0 then [] else hexDigit u :: hexLoop n (u / 16)

/-- `fn hex`, /repo/src/lib.rs:638-656. -/
def hex (u : Nat) : Str :=
  if u = 0 then "\\u0000".toList
  else
    let vec := hexLoop 16 u
    let vec := if vec.length < 4 then vec ++ List.replicate (4 - vec.length) '0' else vec
    (vec ++ ['u', '\\']).reverse

/-- The match on one character in `escape`, /repo/src/lib.rs:608-630. -/
def escapeChar (ch : Char) : Str :=
  if ch = '"' then ['\\', '"']
  else if ch = '\\' then ['\\', '\\']
  else if ch = '/' then ['\\', '/']
  else if ch = '\x08' then ['\\', 'b']
  else if ch = '\x0C' then ['\\', 'f']
  else if ch = '\n' then ['\\', 'n']
  else if ch = '\r' then ['\\', 'r']
  else if ch = '\t' then ['\\', 't']
  else if ch.toNat ≤ 0x1F then hex ch.toNat
  else if 0x20 ≤ ch.toNat ∧ ch.toNat ≤ 0x7E then [ch]
  else
    let u := ch.toNat
    if u ≤ 0xFFFF then hex u
    else
      let surrogate := u - 0x10000
      let high := surrogate / 1024 + 0xD800
      let low := surrogate % 1024 + 0xDC00
      hex high ++ hex low

/-- The body of `escape` without the surrounding quotes. -/
def escapeBody : Str → Str
  | [] => []
  | c :: s => escapeChar c ++ escapeBody s

/-- `fn escape`, /repo/src/lib.rs:604-634. -/
def escape (s : Str) : Str := ['"'] ++ escapeBody s ++ ['"']

/-- UTF-8 bytes of a `char` (std; `String`s compare by their bytes). -/
def utf8Char (c : Char) : List Nat :=
  let u := c.toNat
  if u ≤ 0x7F then [u]
  else if u ≤ 0x7FF then [0xC0 + u / 64, 0x80 + u % 64]
  else if u ≤ 0xFFFF then [0xE0 + u / 4096, 0x80 + u / 64 % 64, 0x80 + u % 64]
  else [0xF0 + u / 262144, 0x80 + u / 4096 % 64, 0x80 + u / 64 % 64, 0x80 + u % 64]

/-- The bytes of a `String` (std). -/
def utf8 : Str → List Nat
  | [] => []
  | c :: s => utf8Char c ++ utf8 s

/-- Lexicographic `≤` on byte strings (std: `Ord for [u8]`). -/
def bytesLe : List Nat → List Nat → Bool
  | [], _ => true
  | _ :: _, [] => false
  | a :: as, b :: bs => if a < b then true else if b < a then false else bytesLe as bs

/-- `k1.cmp(k2) != Greater`, /repo/src/lib.rs:121 (std: `Ord for str` compares bytes). -/
def strLe (a b : Str) : Bool := bytesLe (utf8 a) (utf8 b)

/-- Insertion into a sorted list, helper of `sortByKey`. -/
def insertByKey {β : Type} (x : Str × β) : List (Str × β) → List (Str × β)
  | [] => [x]
  | y :: t => if strLe x.1 y.1 then x :: y :: t else y :: insertByKey x t

/-- `obj.sort_by(|(k1, ..), (k2, ..)| k1.cmp(k2))`, /repo/src/lib.rs:120-121.  `sort_by` is a stable sort; insertion
sort with `≤` is too, and gives the same list. -/
def sortByKey {β : Type} : List (Str × β) → List (Str × β)
  | [] => []
  | x :: t => insertByKey x (sortByKey t)

/-- `.join(", ")`, /repo/src/lib.rs:133, 140. -/
def joinComma : List Str → Str
  | [] => []
  | [x] => x
  | x :: y :: t => x ++ ", ".toList ++ joinComma (y :: t)

/-- One entry of the object printer, /repo/src/lib.rs:124-131: the duplicates (already printed) oldest first,
each followed by `, `, then the current value.  `list` is `list.iter()` (newest first). -/
def printEntry (k : Str) (js : Str) (list : List Str) : Str :=
  (list.reverse.map (fun d => escape k ++ ": ".toList ++ d ++ ", ".toList)).flatten ++ (escape k ++ ": ".toList ++ js)

section
variable {F : Type} [FloatOps F]

mutual
/-- `Json::to_string`, /repo/src/lib.rs:116-148.  The entries are printed and then sorted by key rather
than sorted and then printed: `sort_by` looks at keys only. -/
def Json.toString : Json F → Str
  | .object obj =>
    ['{'] ++ joinComma ((sortByKey (printEntries obj)).map (·.2)) ++ ['}']
  | .array vec => ['['] ++ joinComma (printList vec) ++ [']']
  | .string s => escape s
  | .number f => FloatOps.print f
  | .boolean true => "true".toList
  | .boolean false => "false".toList
  | .null => "null".toList
/-- `.map(|(k, (js, list))| ..)` over the hash map, /repo/src/lib.rs:123-131. -/
def printEntries : List (Str × (Json F × List (Json F))) → List (Str × Str)
  | [] => []
  | (k, (js, list)) :: t => (k, printEntry k (Json.toString js) (printList list)) :: printEntries t
/-- `.map(|x| x.to_string())`, /repo/src/lib.rs:137-138 (and the duplicates, :126-128). -/
def printList : List (Json F) → List Str
  | [] => []
  | x :: t => Json.toString x :: printList t
end

end

end RJ
