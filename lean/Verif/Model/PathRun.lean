import Verif.Model.Path
/-
  `get`, `set` and `del` once more, with the number of steps and the depth of their recursion.

  A step is one `iter.next()` of `parse_path`, one character copied into a finder, one call of `append`, `find`, `find_mut`, `discard` or `update` of `Path` (with the lookups of its finder), or one `null` that `update` appends to an array.
  Looking up a name (hashing), removing an element from an array, and memory management are not counted.
-/
namespace RJ

/-- A finished call. -/
structure PCost (α : Type) where
  /-- steps taken -/
  steps : Nat
  /-- the most calls of these methods of `Path` that were active at a time -/
  depth : Nat
  /-- the result -/
  res : α

/-- `Path::append`, /repo/src/lib.rs:1022-1028. -/
def Path.appendRun : Path → Finder → PCost Path
  | .cons f next, g => let c := next.appendRun g; ⟨c.steps + 1, c.depth + 1, .cons f c.res⟩
  | .last f, g => ⟨1, 1, .cons f (.last g)⟩

/-- `iter.for_each(|f| { path.append(f); })`, /repo/src/lib.rs:1172. -/
def Path.appendAll : List Finder → PCost Path → PCost Path
  | [], c => c
  | g :: rest, c => let d := c.res.appendRun g; Path.appendAll rest ⟨c.steps + d.steps, max c.depth d.depth, d.res⟩

/-- The loop of `parse_path`, /repo/src/lib.rs:1148-1166: the steps and the result. -/
def pathLoopRun : Str → Str → List Finder → Nat × Res (List Finder)
  | [], buf, vec =>
    match finderOf buf with
    | .ok f => (1 + buf.length, .ok (vec ++ [f]))
    | .error e => (1 + buf.length, .error e)
  | c :: iter, buf, vec =>
    if c = '.' then
      match finderOf buf with
      | .ok f => let r := pathLoopRun iter [] (vec ++ [f]); (1 + buf.length + r.1, r.2)
      | .error e => (1 + buf.length, .error e)
    else if c = '\\' then
      match iter with
      | d :: iter' => if d = '.' then let r := pathLoopRun iter' (buf ++ ['.']) vec; (2 + r.1, r.2) else let r := pathLoopRun (d :: iter') (buf ++ ['\\']) vec; (1 + r.1, r.2)
      | [] => let r := pathLoopRun [] (buf ++ ['\\']) vec; (1 + r.1, r.2)
    else let r := pathLoopRun iter (buf ++ [c]) vec; (1 + r.1, r.2)

/-- `parse_path`, /repo/src/lib.rs:1121-1175. -/
def parsePathRun (s : Str) : PCost (Res Path) :=
  match pathLoopRun s [] [] with
  | (n, .error e) => ⟨n, 0, .error e⟩
  | (n, .ok []) => ⟨n, 0, fail .PathSyntaxError "invalid syntax: empty path."⟩
  | (n, .ok (f :: rest)) => let c := Path.appendAll rest ⟨0, 0, .last f⟩; ⟨n + c.steps, c.depth, .ok c.res⟩

/-- A call on a parsed path after `parse_path(s)?`, or the early return on the empty text: /repo/src/lib.rs:1100-1103, 1107-1110, 1114-1117. -/
def withPath {α : Type} (s : Str) (err : Error → α) (body : Path → PCost α) : PCost α :=
  if s = [] then ⟨0, 0, err ⟨.PathSyntaxError, "invalid syntax: empty path.".toList⟩⟩
  else
    let c := parsePathRun s
    match c.res with
    | .ok p => let r := body p; ⟨c.steps + r.steps, max c.depth r.depth, r.res⟩
    | .error e => ⟨c.steps, c.depth, err e⟩

section
variable {F : Type}

/-- `Path::find`, /repo/src/lib.rs:1030-1040. -/
def Path.findRun : Path → Json F → PCost (Res (Json F))
  | .last f, json => ⟨1, 1, f.find json⟩
  | .cons f next, json =>
    match f.find json with
    | .ok inner => let c := next.findRun inner; ⟨c.steps + 1, c.depth + 1, c.res⟩
    | .error e => ⟨1, 1, .error e⟩

/-- `Path::discard`, /repo/src/lib.rs:1054-1064. -/
def Path.discardRun : Path → Json F → PCost (Json F × Res (Json F))
  | .last f, json => ⟨1, 1, f.discard json⟩
  | .cons f next, json =>
    match f.findMut json with
    | .ok inner => let c := next.discardRun inner.val; ⟨c.steps + 1, c.depth + 1, (inner.put c.res.1, c.res.2)⟩
    | .error e => ⟨1, 1, (json, .error e)⟩

/-- The number of `null`s that `Finder::update` appends, /repo/src/lib.rs:1305-1317. -/
def Finder.grown : Finder → Json F → Nat
  | .index i, .array vec => i + 1 - vec.length
  | .index i, _ => i + 1
  | .key _, _ => 0

/-- `Path::update`, /repo/src/lib.rs:1066-1079.  `Finder::update` (:1290-1324) ends with `json.index_mut(..)`, which calls `Path::find_mut` on a path of one component (:1405-1409). -/
def Path.updateRun (lim : Nat) : Path → Json F → Json F → PCost (Json F × Out (Ref F))
  | .last f, json, v => ⟨f.grown json + 2, 2, f.update lim json v⟩
  | .cons f next, json, v =>
    let descend (n d : Nat) (json : Json F) (inner : Ref F) : PCost (Json F × Out (Ref F)) :=
      let c := next.updateRun lim inner.val v
      ⟨c.steps + n + 1, max (c.depth + 1) d,
        match c.res with
        | (j, .ok r) => (inner.put j, .ok ⟨r.val, fun x => inner.put (r.put x)⟩)
        | (j, .err e) => (inner.put j, .err e)
        | (_, .panic) => (json, .panic)⟩
    match f.find json with
    | .ok _ =>
      match f.findMut json with
      | .ok inner => descend 0 1 json inner
      | .error e => ⟨1, 1, (json, .err e)⟩
    | .error _ =>
      match f.update lim json .null with
      | (json', .ok inner) => descend (f.grown json + 1) 2 json' inner
      | (json', .err e) => ⟨f.grown json + 2, 2, (json', .err e)⟩
      | (json', .panic) => ⟨f.grown json + 2, 2, (json', .panic)⟩

/-- `Json::get`, /repo/src/lib.rs:1099-1104. -/
def Json.getRun (j : Json F) (s : Str) : PCost (Res (Json F)) := withPath s .error (fun p => p.findRun j)

/-- `Json::del`, /repo/src/lib.rs:1106-1111. -/
def Json.delRun (j : Json F) (s : Str) : PCost (Json F × Res (Json F)) := withPath s (fun e => (j, .error e)) (fun p => p.discardRun j)

/-- `Json::set`, /repo/src/lib.rs:1113-1118. -/
def Json.setRun (lim : Nat) (j : Json F) (s : Str) (v : Json F) : PCost (Json F × Out (Ref F)) := withPath s (fun e => (j, .err e)) (fun p => p.updateRun lim j v)

end
end RJ
