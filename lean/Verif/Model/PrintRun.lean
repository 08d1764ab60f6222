import Verif.Model.Print
/-
  `Json::to_string` once more, with the number of characters it writes and the depth of its recursion.

  A step is one call of `to_string`, or one character written to a string: by `escape`, `format!`, `push_str`, `join` or std's printing of numbers.  A text that is copied
  is counted again with every copy.  Sorting the members of an object (comparisons of their names) and memory management are not counted.
-/
namespace RJ

/-- A finished run of `to_string`. -/
structure PRun where
  /-- calls and characters written -/
  steps : Nat
  /-- the most calls of `to_string` that were active at a time -/
  depth : Nat
  /-- the result -/
  text : Str

/-- The largest number, 0 if there is none. -/
def largest : List Nat → Nat
  | [] => 0
  | n :: l => max n (largest l)

/-- A value without parts: the call, and its text written once (/repo/src/lib.rs:142-145). -/
def leafPrint (t : Str) : PRun := ⟨1 + t.length, 1, t⟩

/-- `format!("{}: {}, ", escape(k), js.to_string())` and `s.push_str` of it, /repo/src/lib.rs:127: the name is escaped, the value is printed, both are copied into a new string, and
that string is copied to `s`; `sep` is `, ` or empty (line 129). -/
def memberSteps (k : Str) (sep : Nat) (r : PRun) : Nat :=
  let line := (escape k).length + 2 + r.text.length + sep
  (escape k).length + r.steps + line + line

/-- One entry of an object, /repo/src/lib.rs:124-131. -/
def entryRun (k : Str) (js : PRun) (list : List PRun) : PRun :=
  ⟨(list.reverse.map (memberSteps k 2)).sum + memberSteps k 0 js, largest (js.depth :: list.map (·.depth)), printEntry k js.text (list.map (·.text))⟩

section
variable {F : Type} [FloatOps F]

mutual
/-- `Json::to_string`, /repo/src/lib.rs:116-148.  `.join(", ")` copies the texts of the parts, `format!` copies the result between brackets. -/
def Json.printRun : Json F → PRun
  | .object obj =>
    let es := sortByKey (entriesRun obj)
    let joined := joinComma (es.map (·.2.text))
    ⟨1 + (es.map (·.2.steps)).sum + joined.length + (joined.length + 2), 1 + largest (es.map (·.2.depth)), ['{'] ++ joined ++ ['}']⟩
  | .array vec =>
    let es := listRun vec
    let joined := joinComma (es.map (·.text))
    ⟨1 + (es.map (·.steps)).sum + joined.length + (joined.length + 2), 1 + largest (es.map (·.depth)), ['['] ++ joined ++ [']']⟩
  | .string s => leafPrint (escape s)
  | .number f => leafPrint (FloatOps.print f)
  | .boolean true => leafPrint "true".toList
  | .boolean false => leafPrint "false".toList
  | .null => leafPrint "null".toList
/-- The entries of an object, /repo/src/lib.rs:123-131. -/
def entriesRun : List (Str × (Json F × List (Json F))) → List (Str × PRun)
  | [] => []
  | (k, (js, list)) :: t => (k, entryRun k (Json.printRun js) (listRun list)) :: entriesRun t
/-- `.map(|x| x.to_string())`, /repo/src/lib.rs:137-138, 126. -/
def listRun : List (Json F) → List PRun
  | [] => []
  | x :: t => Json.printRun x :: listRun t
end

end
end RJ
