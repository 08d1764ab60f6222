import Verif.Spec.Doc
/-
  Specification of the path syntax (/repo/readme.md:143-150): which lists of keys and indices a text stands for.
-/
namespace RJ.Spec
open RJ

/-- The text of one component and what is left after replacing every `\.` by `.`.  A dot that is not preceded by a backslash
does not occur in a component. -/
inductive Piece : Str → Str → Prop
  | nil : Piece [] []
  /-- `\.` stands for a dot -/
  | dot {s t : Str} : Piece s t → Piece ('\\' :: '.' :: s) ('.' :: t)
  /-- any other character stands for itself -/
  | char {c : Char} {s t : Str} : c ≠ '.' → (c = '\\' → s.head? ≠ some '.') → Piece s t → Piece (c :: s) (c :: t)

/-- A path text as a sequence of dot separated components.  The dot after a component that ends in a backslash would be
escaped, hence no component but the last does. -/
inductive Pieces : Str → List Str → Prop
  | last {r t : Str} : Piece r t → Pieces r [t]
  | cons {r t s : Str} {ts : List Str} : Piece r t → r.getLast? ≠ some '\\' → Pieces s ts → Pieces (r ++ '.' :: s) (t :: ts)

/-- Decimal value of a digit string. -/
def decVal (ds : Str) : Nat := ds.foldl (fun n c => 10 * n + (c.toNat - 48)) 0

/-- The texts of unsigned 64-bit integers: optional plus sign, digits, value below 2^64. -/
def IsUsize (s : Str) (n : Nat) : Prop :=
  ∃ sg ds, s = sg ++ ds ∧ (sg = [] ∨ sg = ['+']) ∧ ds ≠ [] ∧ Digits ds ∧ decVal ds = n ∧ n < 2 ^ 64

/-- What a component stands for: `#<integer>` an index, `\<string>` a key, any other string (not starting with
`#` or `\`) a key. -/
inductive CompOf : Str → Finder → Prop
  | index {s : Str} {n : Nat} : IsUsize s n → CompOf ('#' :: s) (.index n)
  | escaped (k : Str) : CompOf ('\\' :: k) (.key k)
  | plain (k : Str) : k.head? ≠ some '#' → k.head? ≠ some '\\' → CompOf k (.key k)

/-- A component that is not a path component: `#` not followed by an unsigned 64-bit integer. -/
def BadComp (t : Str) : Prop := ∃ s, t = '#' :: s ∧ ¬ ∃ n, IsUsize s n

/-- Each component stands for the corresponding key or index. -/
inductive CompsOf : List Str → List Finder → Prop
  | nil : CompsOf [] []
  | cons {t : Str} {f : Finder} {ts : List Str} {fs : List Finder} : CompOf t f → CompsOf ts fs → CompsOf (t :: ts) (f :: fs)

/-- A path text stands for a list of keys and indices. -/
def PathText (s : Str) (fs : List Finder) : Prop :=
  s ≠ [] ∧ ∃ ts, Pieces s ts ∧ CompsOf ts fs

/-! ### Writing a path (the documented escapes) -/

/-- Escape the dots of a key. -/
def escDots : Str → Str
  | [] => []
  | c :: s => (if c = '.' then ['\\', '.'] else [c]) ++ escDots s

/-- A key as a path component: `\` in front if it starts with `#` or `\`, dots escaped. -/
def writeKey (k : Str) : Str :=
  (if k.head? = some '#' ∨ k.head? = some '\\' then ['\\'] else []) ++ escDots k

def writeComp : Finder → Str
  | .key k => writeKey k
  | .index i => '#' :: (Nat.repr i).toList

/-- Components joined with dots. -/
def joinDots : List Str → Str
  | [] => []
  | [s] => s
  | s :: t => s ++ '.' :: joinDots t

/-- The path text for a list of keys and indices; the path that is just the empty key is written `\`. -/
def writePath (fs : List Finder) : Str :=
  if fs = [.key []] then ['\\'] else joinDots (fs.map writeComp)

/-- The lists that can be written: no key but the last component ends in a backslash, indices fit 64 bits. -/
def Writable : List Finder → Prop
  | [] => False
  | [f] => (∀ i, f = .index i → i < 2 ^ 64)
  | f :: r => (∀ i, f = .index i → i < 2 ^ 64) ∧ (∀ k, f = .key k → k.getLast? ≠ some '\\') ∧ Writable r

end RJ.Spec
