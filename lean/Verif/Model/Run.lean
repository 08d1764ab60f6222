import Verif.Model.Parse
/-
  `Json::parse` once more, with the machine arithmetic of its counters, the number of steps it takes and the depth of its recursion.

  A step is one round of a loop, one character looked at by a leaf parser (`parse_null`, `parse_boolean`, `parse_number` with std's `f64` parser, `parse_string`), or
  one call of `_parse`.  Work inside std containers (pushing to strings and vectors, hashing) is not counted.
-/
namespace RJ

/-- What an `i32` operation with the exact result `x` gives; `none`: it panics. -/
abbrev Arith := Int → Option Int

/-- The range of `i32`. -/
def InRange (x : Int) : Prop := -2 ^ 31 ≤ x ∧ x < 2 ^ 31

instance (x : Int) : Decidable (InRange x) := by unfold InRange; infer_instance

/-- Debug builds: overflow panics. -/
def checked : Arith := fun x => if InRange x then some x else none

/-- Release builds: overflow wraps. -/
def wrapping : Arith := fun x => some ((x + 2 ^ 31) % 2 ^ 32 - 2 ^ 31)

/-- A run: it panics, or ends with a number of steps, a recursion depth and a result. -/
abbrev Run (α : Type) := Option (Nat × Nat × Res α)

/-- A result for free. -/
def done {α : Type} (x : Res α) : Run α := some (0, 0, x)

/-- `n` steps more. -/
def pay {α : Type} (n : Nat) (r : Run α) : Run α := r.map (fun x => (n + x.1, x.2.1, x.2.2))

/-- One call more around it. -/
def deeper {α : Type} (r : Run α) : Run α := r.map (fun x => (1 + x.1, 1 + x.2.1, x.2.2))

/-- First `r`, then `k` with its result. -/
def andThen {α β : Type} (r : Run α) (k : Res α → Run β) : Run β :=
  match r with
  | none => none
  | some (s, d, x) => (k x).map (fun y => (s + y.1, max d y.2.1, y.2.2))

/-- A counter changed. -/
def withInt {α : Type} (r : Option Int) (k : Int → Run α) : Run α :=
  match r with
  | none => none
  | some i => k i

section
variable {F : Type} [FloatOps F]

/-- The array after its last element: the loop over trailing characters, /repo/src/lib.rs:408-416.  Its rounds: at most one for each character left. -/
def arrEnd (iter : Str) (array : List (Json F)) : Res (Json F) → Run (Json F)
  | .error e => done (.error e)
  | .ok v => pay iter.length (done (match skipTrail .ParseArrayError iter with
      | .error e => .error e
      | .ok () => .ok (.array (array ++ [v]))))

/-- The main loop of `parse_array`, /repo/src/lib.rs:404-466; see `arrLoop`. -/
def arrRun (add : Arith) (rec : Str → Run (Json F)) : Str → Int → Int → Str → List (Json F) → Run (Json F)
  | [], _, _, _, _ => pay 1 (done (fail .ParseArrayError "missing ]."))
  | c :: iter, i, j, inner, array => pay 1 (
    if c = ']' ∧ i = 0 ∧ j = 0 then andThen (rec inner) (arrEnd iter array)
    else if c = ',' ∧ i = 0 ∧ j = 0 then
      if inner = [] then done (fail .ParseArrayError "invalid empty element.")
      else if iter.head? = some ']' then done (fail .ParseArrayError "invalid trailing comma.")
      else andThen (rec inner) (fun x => match x with
        | .error e => done (.error e)
        | .ok v => arrRun add rec iter i j [] (array ++ [v]))
    else if c = '"' then withInt (add (quoteStep j)) (fun j => arrRun add rec iter i j (inner ++ ['"']) array)
    else if c = '[' then withInt (add (i + 1)) (fun i => arrRun add rec iter i j (inner ++ ['[']) array)
    else if c = ']' then withInt (add (i - 1)) (fun i => arrRun add rec iter i j (inner ++ [']']) array)
    else if c = '{' then withInt (add (i + 1)) (fun i => arrRun add rec iter i j (inner ++ ['{']) array)
    else if c = '}' then withInt (add (i - 1)) (fun i => arrRun add rec iter i j (inner ++ ['}']) array)
    else if c = '\\' then
      match iter with
      | [] => done (fail .ParseArrayError "missing escaped character.")
      | ch :: iter => arrRun add rec iter i j (inner ++ ['\\', ch]) array
    else if i = 0 ∧ j = 0 ∧ isWs c then arrRun add rec iter i j inner array
    else arrRun add rec iter i j (inner ++ [c]) array)

/-- `Json::parse_array`, /repo/src/lib.rs:394-467. -/
def arrayRun (add : Arith) (rec : Str → Run (Json F)) (json : Str) : Run (Json F) :=
  let iter := json.drop 1
  if iter.head? = some ']' then done (.ok (.array []))
  else arrRun add rec iter 0 0 [] []

/-- The object after its last member, /repo/src/lib.rs:486-494. -/
def objEnd (iter : Str) (key : Str) (object : Obj F) : Res (Json F) → Run (Json F)
  | .error e => done (.error e)
  | .ok v => pay iter.length (done (match skipTrail .ParseObjectError iter with
      | .error e => .error e
      | .ok () => .ok (.object (objectInsert key v object))))

/-- `if let Ok(Json::String(key)) = Json::_parse(&k) { .. } else { return Err(..) }`, /repo/src/lib.rs:484-499 and :508-516. -/
def withKey (k : Str → Run (Json F)) : Res (Json F) → Run (Json F)
  | .ok (.string key) => k key
  | _ => done (fail .ParseObjectError "error parsing key string.")

/-- The main loop of `parse_object`, /repo/src/lib.rs:481-590; see `objLoop`. -/
def objRun (add : Arith) (rec : Str → Run (Json F)) : Str → Int → Int → Str × Str → Bool → Obj F → Run (Json F)
  | [], _, _, _, _, _ => pay 1 (done (fail .ParseObjectError "missing }."))
  | c :: iter, i, j, kv, onKey, object => pay 1 (
    if c = '}' ∧ i = 0 ∧ j = 0 ∧ onKey = false then
      andThen (rec kv.1) (withKey (fun key => andThen (rec kv.2) (objEnd iter key object)))
    else if c = ',' ∧ i = 0 ∧ j = 0 ∧ onKey = false then
      if kv.1 = [] ∨ kv.2 = [] then done (fail .ParseObjectError "invalid empty member.")
      else if iter.head? = some '}' then done (fail .ParseObjectError "invalid trailing comma.")
      else andThen (rec kv.1) (withKey (fun key => andThen (rec kv.2) (fun x => match x with
        | .error e => done (.error e)
        | .ok v => objRun add rec iter i j ([], []) true (objectInsert key v object))))
    else if c = ':' ∧ i = 0 ∧ j = 0 then objRun add rec iter i j kv false object
    else if c = '"' then withInt (add (quoteStep j)) (fun j => objRun add rec iter i j (pushKV onKey kv.1 kv.2 ['"']) onKey object)
    else if c = '[' then withInt (add (i + 1)) (fun i => objRun add rec iter i j (pushKV onKey kv.1 kv.2 ['[']) onKey object)
    else if c = ']' then withInt (add (i - 1)) (fun i => objRun add rec iter i j (pushKV onKey kv.1 kv.2 [']']) onKey object)
    else if c = '{' then withInt (add (i + 1)) (fun i => objRun add rec iter i j (pushKV onKey kv.1 kv.2 ['{']) onKey object)
    else if c = '}' then withInt (add (i - 1)) (fun i => objRun add rec iter i j (pushKV onKey kv.1 kv.2 ['}']) onKey object)
    else if c = '\\' then
      match iter with
      | [] => done (fail .ParseObjectError "missing escaped character.")
      | ch :: iter => objRun add rec iter i j (pushKV onKey kv.1 kv.2 ['\\', ch]) onKey object
    else if i = 0 ∧ j = 0 ∧ isWs c then objRun add rec iter i j kv onKey object
    else objRun add rec iter i j (pushKV onKey kv.1 kv.2 [c]) onKey object)

/-- `Json::parse_object`, /repo/src/lib.rs:469-591. -/
def objectRun (add : Arith) (rec : Str → Run (Json F)) (json : Str) : Run (Json F) :=
  let iter := json.drop 1
  if iter.head? = some '}' then done (.ok (.object []))
  else objRun add rec iter 0 0 ([], []) true []

/-- A value without parts: every character is looked at once, then the end. -/
def leaf (json : Str) (x : Res (Json F)) : Run (Json F) := pay (json.length + 1) (done x)

/-- `Json::_parse`, /repo/src/lib.rs:271-281, with its recursive calls going to `rec`. -/
def bodyRun (add : Arith) (rec : Str → Run (Json F)) (json : Str) : Run (Json F) :=
  deeper (match json.head? with
    | none => done (fail .InvalidJson "invalid json.")
    | some c =>
      if c = 'n' then leaf json (parseNull json)
      else if c = 't' ∨ c = 'f' then leaf json (parseBoolean json)
      else if c = '-' ∨ isDigit c then leaf json (parseNumber json)
      else if c = '"' then leaf json (parseString json)
      else if c = '[' then arrayRun add rec json
      else if c = '{' then objectRun add rec json
      else done (fail .InvalidJson "invalid json."))

/-- `Json::_parse` with a bound on the recursion depth, as `parseFuel`. -/
def fuelRun (add : Arith) : Nat → Str → Run (Json F)
  | 0, _ => done (fail .InvalidJson "unreachable")
  | n + 1, json => bodyRun add (fuelRun add n) json

/-- `Json::parse`, /repo/src/lib.rs:266-269; the bound is that of `parseRaw`. -/
def Json.run (add : Arith) (json : Str) : Run (Json F) := fuelRun add ((trimWs json).length + 1) (trimWs json)

end
end RJ
