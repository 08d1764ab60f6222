import Verif.Model.Path
import Verif.Spec.History
/-
  Histories of calls on one document: every call of `Spec.Call` is made on the model of the method it stands for.
-/
namespace RJ
open Spec
variable {F : Type}

/-- What the caller sees of a `Result<(), Error>`. -/
def sawUnit : Res Unit → Saw F
  | .ok _ => .ok
  | .error e => .error e

/-- What the caller sees of a `Result<&Json, Error>` or `Result<Json, Error>`. -/
def sawValue : Res (Json F) → Saw F
  | .ok x => .value (absJ x)
  | .error e => .error e

/-- The methods of /repo/src/lib.rs:157-246 called on a value. -/
def Method.call (m : Method F) (j : Json F) : Json F × Saw F :=
  match m with
  | .insert k v => let (j, r) := j.insert k v; (j, sawUnit r)
  | .append k v => let (j, r) := j.append k v; (j, sawUnit r)
  | .delete k => let (j, r) := j.delete k; (j, sawUnit r)
  | .merge k => (j, match j.indexAndMerge k with | .ok l => .values (l.map absJ) | .error e => .error e)
  | .push v => let (j, r) := j.push v; (j, sawUnit r)
  | .replace i v => let (j, r) := j.replace i v; (j, sawUnit r)
  | .remove i => let (j, r) := j.remove i; (j, match r with | .ok _ => .ok | .err e => .error e | .panic => .panic)
  | .read => (j, .value (absJ j))
  | .assign v => (v, .ok)

/-- `js[f1][f2]..`: `IndexMut::index_mut` again and again, /repo/src/lib.rs:1405-1409. -/
def Json.indexAll (j : Json F) : List Finder → Out (Ref F)
  | [] => .ok ⟨j, fun x => x⟩
  | f :: r =>
    match j.indexMut f with
    | .ok inner =>
      match inner.val.indexAll r with
      | .ok ref => .ok ⟨ref.val, fun x => inner.put (ref.put x)⟩
      | .err e => .err e
      | .panic => .panic
    | .err e => .err e
    | .panic => .panic

/-- A method called through a reference into the document. -/
def Ref.call (r : Ref F) (m : Method F) : Json F × Saw F :=
  let (j, o) := Method.call m r.val
  (r.put j, o)

/-- One call: `get`, `set`, `del` (/repo/src/lib.rs:1099-1118), `find`, `find_mut`, `discard`, `update` (:1083-1097), index operators (:1398-1409). -/
def Call.run (lim : Nat) (c : Call F) (j : Json F) : Json F × Saw F :=
  match c with
  | .get (.text s) => (j, sawValue (j.get s))
  | .get (.path f r) => (j, sawValue ((Path.build f r).find j))
  | .set l v =>
    let (j, r) := match l with
      | .text s => j.set lim s v
      | .path f r => (Path.build f r).update lim j v
    (j, match r with | .ok r => .value (absJ r.val) | .err e => .error e | .panic => .panic)
  | .del (.text s) => let (j, r) := j.del s; (j, sawValue r)
  | .del (.path f r) => let (j, r) := (Path.build f r).discard j; (j, sawValue r)
  | .direct m => Method.call m j
  | .via f r m =>
    match (Path.build f r).findMut j with
    | .ok ref => ref.call m
    | .error e => (j, .error e)
  | .index f r m =>
    match j.indexAll (f :: r) with
    | .ok ref => ref.call m
    | .err e => (j, .error e)
    | .panic => (j, .panic)

/-- Calls one after the other, up to a panic. -/
def runAll (lim : Nat) : List (Call F) → Json F → List (Saw F) × Option (Json F)
  | [], j => ([], some j)
  | c :: cs, j =>
    match Call.run lim c j with
    | (_, .panic) => ([.panic], none)
    | (j', o) => let (os, r) := runAll lim cs j'; (o :: os, r)

end RJ
