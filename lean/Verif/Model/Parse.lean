import Verif.Model.Basic
/-
  Model of `Json::parse` and the functions it calls.
-/
namespace RJ

/-- `fn parse_hex_digit`, /repo/src/lib.rs:658-670. -/
def parseHexDigit (ch : Char) : Res Nat :=
  let u := ch.toNat
  if u ≥ 0x30 ∧ u ≤ 0x39 then .ok (u - 0x30)
  else if u ≥ 0x41 ∧ u ≤ 0x46 then .ok (u - 0x41 + 10)
  else if u ≥ 0x61 ∧ u ≤ 0x66 then .ok (u - 0x61 + 10)
  else failS .ParseStringError ("parse unicode error: invalid hex digit ".toList ++ [ch, '.'])

/-- `fn encode_utf8`, /repo/src/lib.rs:672-690.  `usize as u8` keeps the low 8 bits. -/
def encodeUtf8 (u : Nat) : List Nat :=
  if u ≤ 0x7F then [u % 256]
  else if u ≤ 0x7FF then [(0xC0 ||| (u >>> 6)) % 256, (0x80 ||| (u &&& 0x3F)) % 256]
  else if u ≤ 0xFFFF then
    [(0xE0 ||| (u >>> 12)) % 256, (0x80 ||| ((u >>> 6) &&& 0x3F)) % 256, (0x80 ||| (u &&& 0x3F)) % 256]
  else
    [(0xF0 ||| (u >>> 18)) % 256, (0x80 ||| ((u >>> 12) &&& 0x3F)) % 256,
     (0x80 ||| ((u >>> 6) &&& 0x3F)) % 256, (0x80 ||| (u &&& 0x3F)) % 256]

/-- Is `b` a UTF-8 continuation byte? -/
def isCont (b : Nat) : Bool := 0x80 ≤ b && b ≤ 0xBF

/-- `str::from_utf8` (std), called at /repo/src/lib.rs:375: the well-formed byte sequences of Unicode Table 3-7. -/
def fromUtf8 : List Nat → Option Str
  | [] => some []
  | b0 :: t =>
    if b0 ≤ 0x7F then (fromUtf8 t).map (Char.ofNat b0 :: ·)
    else if 0xC2 ≤ b0 ∧ b0 ≤ 0xDF then
      match t with
      | b1 :: t =>
        if isCont b1 then (fromUtf8 t).map (Char.ofNat ((b0 - 0xC0) * 64 + (b1 - 0x80)) :: ·) else none
      | _ => none
    else if 0xE0 ≤ b0 ∧ b0 ≤ 0xEF then
      match t with
      | b1 :: b2 :: t =>
        if isCont b1 ∧ isCont b2 ∧ (b0 = 0xE0 → 0xA0 ≤ b1) ∧ (b0 = 0xED → b1 ≤ 0x9F) then
          (fromUtf8 t).map (Char.ofNat ((b0 - 0xE0) * 4096 + (b1 - 0x80) * 64 + (b2 - 0x80)) :: ·)
        else none
      | _ => none
    else if 0xF0 ≤ b0 ∧ b0 ≤ 0xF4 then
      match t with
      | b1 :: b2 :: b3 :: t =>
        if isCont b1 ∧ isCont b2 ∧ isCont b3 ∧ (b0 = 0xF0 → 0x90 ≤ b1) ∧ (b0 = 0xF4 → b1 ≤ 0x8F) then
          (fromUtf8 t).map
            (Char.ofNat ((b0 - 0xF0) * 262144 + (b1 - 0x80) * 4096 + (b2 - 0x80) * 64 + (b3 - 0x80)) :: ·)
        else none
      | _ => none
    else none

/-- The loop `for _ in 0..4 { match iter.next() { Some(ch) => u = (u << 4) | parse_hex_digit(ch)?, .. } }`,
/repo/src/lib.rs:345-352 and :360-367, with the number of rounds left and the rest of the iterator as result. -/
def hexRounds : Nat → Nat → Str → Res (Nat × Str)
  | 0, u, s => .ok (u, s)
  | n + 1, u, s =>
    match s with
    | [] => fail .ParseStringError "parse unicode error: missing hex digit."
    | ch :: s =>
      match parseHexDigit ch with
      | .ok d => hexRounds n ((u <<< 4) ||| d) s
      | .error e => .error e

/-- What follows `\u` in `parse_string`, /repo/src/lib.rs:344-381: the decoded text and the rest of the iterator. -/
def unicodeEscape (s : Str) : Res (Str × Str) :=
  match hexRounds 4 0 s with
  | .error e => .error e
  | .ok (u, s) =>
    let finish (u : Nat) (s : Str) : Res (Str × Str) :=
      match fromUtf8 (encodeUtf8 u) with
      | some t => .ok (t, s)
      | none => fail .ParseStringError "invalid utf-8 encoding."
    if u ≥ 0xD800 ∧ u ≤ 0xDBFF then
      match s with
      | a :: b :: s =>
        if a = '\\' ∧ b = 'u' then
          match hexRounds 4 0 s with
          | .error e => .error e
          | .ok (u2, s) =>
            if u2 < 0xDC00 ∨ u2 > 0xDFFF then fail .ParseStringError "invalid low surrogate."
            else finish ((((u - 0xD800) <<< 10) ||| (u2 - 0xDC00)) + 0x10000) s
        else fail .ParseStringError "missing low surrogate."
      | _ => fail .ParseStringError "missing low surrogate."
    else finish u s

/-- The inner loops that skip trailing whitespace (/repo/src/lib.rs:324-331, 408-415, 486-493). -/
def skipTrail (k : ErrorKind) : Str → Res Unit
  | [] => .ok ()
  | ch :: s => if isWs ch then skipTrail k s else failS k ("invalid trailing character: ".toList ++ [ch, '.'])

/-- The single-character escapes of `parse_string`, /repo/src/lib.rs:336-343. -/
def simpleEscape (c : Char) : Option Char :=
  if c = '"' then some '"'
  else if c = '\\' then some '\\'
  else if c = '/' then some '/'
  else if c = 'b' then some '\x08'
  else if c = 'f' then some '\x0C'
  else if c = 'n' then some '\n'
  else if c = 'r' then some '\r'
  else if c = 't' then some '\t'
  else none

/-- The main loop of `parse_string`, /repo/src/lib.rs:321-391.  The first argument bounds the number of rounds
(each round consumes at least one character; `parseStringRaw` passes the length of the text, and
`strLoop_fuel` proves that the bound is never reached); the last is the string built so far. -/
def strLoop : Nat → Str → Str → Res Str
  | 0, _, _ => fail .ParseStringError "unreachable"
  | n + 1, iter, s =>
    match iter with
    | [] => fail .ParseStringError "missing \"."
    | c :: iter =>
      if c = '"' then
        match skipTrail .ParseStringError iter with
        | .ok () => .ok s
        | .error e => .error e
      else if c = '\\' then
        match iter with
        | [] => fail .ParseStringError "missing escaped character."
        | e :: iter =>
          match simpleEscape e with
          | some ch => strLoop n iter (s ++ [ch])
          | none =>
            if e = 'u' then
              match unicodeEscape iter with
              | .ok (t, iter) => strLoop n iter (s ++ t)
              | .error e => .error e
            else fail .ParseStringError "missing escaped character."
      else if c.toNat ≤ 0x1F then fail .ParseStringError "invalid character."
      else strLoop n iter (s ++ [c])

/-- `parse_string` up to the constructor `Json::String`, /repo/src/lib.rs:318-392. -/
def parseStringRaw (json : Str) : Res Str := strLoop (json.length + 1) (json.drop 1) []

/-- Is `c` a decimal digit (`'0'..='9'`)? -/
def isDigit (c : Char) : Bool := '0'.toNat ≤ c.toNat && c.toNat ≤ '9'.toNat

/-- The loops `loop { match iter.peek() { Some('0'..='9') => iter.next(), _ => break } }`
(/repo/src/lib.rs:705-710, 722-727, 740-745). -/
def skipDigits : Str → Str
  | [] => []
  | c :: s => if isDigit c then skipDigits s else c :: s

/-- `// validate 'e'/'E'`, /repo/src/lib.rs:732-748; the rest of the iterator (the code only advances it). -/
def vnExp (s : Str) : Bool :=
  match s with
  | c :: s =>
    if c = 'e' ∨ c = 'E' then
      let s := match s with
        | d :: s' => if d = '+' ∨ d = '-' then s' else d :: s'
        | [] => []
      let _ := skipDigits s
      true
    else true
  | [] => true

/-- `// validate '.'`, /repo/src/lib.rs:715-730; `iter.nth(1)` skips the dot and returns the next character. -/
def vnFrac (s : Str) : Bool :=
  match s with
  | c :: s =>
    if c = '.' then
      match s with
      | d :: s => if isDigit d then vnExp (skipDigits s) else false
      | [] => false
    else vnExp (c :: s)
  | [] => vnExp []

/-- `// validate '0'/'1'~'9'`, /repo/src/lib.rs:701-713. -/
def vnInt (s : Str) : Bool :=
  match s with
  | c :: s =>
    if c = '0' then vnFrac s
    else if isDigit c then vnFrac (skipDigits (c :: s))
    else false
  | [] => false

/-- `fn valid_number`, /repo/src/lib.rs:692-751. -/
def validNumber (num : Str) : Bool :=
  match num with
  | c :: s => if c = '-' then vnInt s else vnInt (c :: s)
  | [] => vnInt []

/-- `str::trim_matches(is_whitespace)` (std), used at /repo/src/lib.rs:267. -/
def trimWs (s : Str) : Str := ((s.dropWhile isWs).reverse.dropWhile isWs).reverse

section
variable {F : Type} [FloatOps F]

/-- `Json::parse_null`, /repo/src/lib.rs:283-290. -/
def parseNull (json : Str) : Res (Json F) :=
  if json = "null".toList then .ok .null else fail .ParseNullError "error parsing null value."

/-- `Json::parse_boolean`, /repo/src/lib.rs:292-299. -/
def parseBoolean (json : Str) : Res (Json F) :=
  if json = "true".toList then .ok (.boolean true)
  else if json = "false".toList then .ok (.boolean false)
  else fail .ParseBooleanError "error parsing boolean value."

/-- `Json::parse_number`, /repo/src/lib.rs:301-316. -/
def parseNumber (json : Str) : Res (Json F) :=
  if validNumber json then
    match (FloatOps.parse json : Option F) with
    | some f =>
      if FloatOps.isFinite f then .ok (.number f)
      else fail .ParseNumberError "error number too large."
    | none => fail .ParseNumberError "error parsing number value."
  else fail .ParseNumberError "invalid number."

/-- `Json::parse_string`, /repo/src/lib.rs:318-392. -/
def parseString (json : Str) : Res (Json F) :=
  match parseStringRaw json with
  | .ok s => .ok (.string s)
  | .error e => .error e

/-- The `j` counter on a quote: `if j <= 0 { j += 1 } else { j -= 1 }`, /repo/src/lib.rs:429-433 and :519-523. -/
def quoteStep (j : Int) : Int := if j ≤ 0 then j + 1 else j - 1

/-- The main loop of `parse_array`, /repo/src/lib.rs:404-466.  `rec` is `Json::_parse`; arguments: rest of the
iterator, `i`, `j`, `inner`, `array`.  `i`, `j` are `i32` in the code, integers here (see DESIGN.md). -/
def arrLoop (rec : Str → Res (Json F)) : Str → Int → Int → Str → List (Json F) → Res (Json F)
  | [], _, _, _, _ => fail .ParseArrayError "missing ]."
  | c :: iter, i, j, inner, array =>
    if c = ']' ∧ i = 0 ∧ j = 0 then
      match rec inner with
      | .error e => .error e
      | .ok v =>
        match skipTrail .ParseArrayError iter with
        | .error e => .error e
        | .ok () => .ok (.array (array ++ [v]))
    else if c = ',' ∧ i = 0 ∧ j = 0 then
      if inner = [] then fail .ParseArrayError "invalid empty element."
      else if iter.head? = some ']' then fail .ParseArrayError "invalid trailing comma."
      else
        match rec inner with
        | .error e => .error e
        | .ok v => arrLoop rec iter i j [] (array ++ [v])
    else if c = '"' then arrLoop rec iter i (quoteStep j) (inner ++ ['"']) array
    else if c = '[' then arrLoop rec iter (i + 1) j (inner ++ ['[']) array
    else if c = ']' then arrLoop rec iter (i - 1) j (inner ++ [']']) array
    else if c = '{' then arrLoop rec iter (i + 1) j (inner ++ ['{']) array
    else if c = '}' then arrLoop rec iter (i - 1) j (inner ++ ['}']) array
    else if c = '\\' then
      match iter with
      | [] => fail .ParseArrayError "missing escaped character."
      | ch :: iter => arrLoop rec iter i j (inner ++ ['\\', ch]) array
    else if i = 0 ∧ j = 0 ∧ isWs c then arrLoop rec iter i j inner array
    else arrLoop rec iter i j (inner ++ [c]) array

/-- `Json::parse_array`, /repo/src/lib.rs:394-467. -/
def parseArray (rec : Str → Res (Json F)) (json : Str) : Res (Json F) :=
  let iter := json.drop 1
  if iter.head? = some ']' then .ok (.array [])
  else arrLoop rec iter 0 0 [] []

/-- `if on_key { k.push(..) } else { v.push(..) }`, used throughout /repo/src/lib.rs:524-586. -/
def pushKV (onKey : Bool) (k v : Str) (t : Str) : Str × Str :=
  if onKey then (k ++ t, v) else (k, v ++ t)

/-- The main loop of `parse_object`, /repo/src/lib.rs:481-590.  Arguments as in `arrLoop`; `kv` is the pair of
the code's variables `k`, `v`. -/
def objLoop (rec : Str → Res (Json F)) :
    Str → Int → Int → Str × Str → Bool → Obj F → Res (Json F)
  | [], _, _, _, _, _ => fail .ParseObjectError "missing }."
  | c :: iter, i, j, kv, onKey, object =>
    if c = '}' ∧ i = 0 ∧ j = 0 ∧ onKey = false then
      match rec kv.1 with
      | .ok (.string key) =>
        match rec kv.2 with
        | .error e => .error e
        | .ok v =>
          match skipTrail .ParseObjectError iter with
          | .error e => .error e
          | .ok () => .ok (.object (objectInsert key v object))
      | _ => fail .ParseObjectError "error parsing key string."
    else if c = ',' ∧ i = 0 ∧ j = 0 ∧ onKey = false then
      if kv.1 = [] ∨ kv.2 = [] then fail .ParseObjectError "invalid empty member."
      else if iter.head? = some '}' then fail .ParseObjectError "invalid trailing comma."
      else
        match rec kv.1 with
        | .ok (.string key) =>
          match rec kv.2 with
          | .error e => .error e
          | .ok v => objLoop rec iter i j ([], []) true (objectInsert key v object)
        | _ => fail .ParseObjectError "error parsing key string."
    else if c = ':' ∧ i = 0 ∧ j = 0 then objLoop rec iter i j kv false object
    else if c = '"' then objLoop rec iter i (quoteStep j) (pushKV onKey kv.1 kv.2 ['"']) onKey object
    else if c = '[' then objLoop rec iter (i + 1) j (pushKV onKey kv.1 kv.2 ['[']) onKey object
    else if c = ']' then objLoop rec iter (i - 1) j (pushKV onKey kv.1 kv.2 [']']) onKey object
    else if c = '{' then objLoop rec iter (i + 1) j (pushKV onKey kv.1 kv.2 ['{']) onKey object
    else if c = '}' then objLoop rec iter (i - 1) j (pushKV onKey kv.1 kv.2 ['}']) onKey object
    else if c = '\\' then
      match iter with
      | [] => fail .ParseObjectError "missing escaped character."
      | ch :: iter => objLoop rec iter i j (pushKV onKey kv.1 kv.2 ['\\', ch]) onKey object
    else if i = 0 ∧ j = 0 ∧ isWs c then objLoop rec iter i j kv onKey object
    else objLoop rec iter i j (pushKV onKey kv.1 kv.2 [c]) onKey object

/-- `Json::parse_object`, /repo/src/lib.rs:469-591. -/
def parseObject (rec : Str → Res (Json F)) (json : Str) : Res (Json F) :=
  let iter := json.drop 1
  if iter.head? = some '}' then .ok (.object [])
  else objLoop rec iter 0 0 ([], []) true []

/-- The body of `Json::_parse` with its recursive calls going to `rec`, /repo/src/lib.rs:271-281. -/
def parseBody (rec : Str → Res (Json F)) (json : Str) : Res (Json F) :=
  match json.head? with
  | none => fail .InvalidJson "invalid json."
  | some c =>
    if c = 'n' then parseNull json
    else if c = 't' ∨ c = 'f' then parseBoolean json
    else if c = '-' ∨ isDigit c then parseNumber json
    else if c = '"' then parseString json
    else if c = '[' then parseArray rec json
    else if c = '{' then parseObject rec json
    else fail .InvalidJson "invalid json."

/-- `Json::_parse` with a bound on the recursion depth: `d` is what a call at depth 0 returns. -/
def parseFuel (d : Res (Json F)) : Nat → Str → Res (Json F)
  | 0, _ => d
  | n + 1, json => parseBody (parseFuel d n) json

/-- `Json::_parse`, /repo/src/lib.rs:271-281.  The recursion depth never exceeds the length of the text
(theorem `C13_parse_terminates`), so the depth bound below is never reached. -/
def parseRaw (json : Str) : Res (Json F) :=
  parseFuel (fail .InvalidJson "unreachable") (json.length + 1) json

/-- `Json::parse`, /repo/src/lib.rs:266-269 (also `FromStr for Json`, :150-155). -/
def Json.parse (json : Str) : Res (Json F) := parseRaw (trimWs json)

end
end RJ
