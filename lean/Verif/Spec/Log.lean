import Verif.Spec.Doc
import Verif.Spec.TextHistory
/-
  A log of JSON texts, one per line, and what is left of it after crashes.
  This is not code of the repository but the way its texts are commonly stored; the model of the code is only used through `toString` and `parse`.
-/
namespace RJ.Spec
open RJ
variable {F : Type} [FloatOps F]

/-- The records, each printed on a line of its own. -/
def logText : List (Json F) → Str
  | [] => []
  | j :: js => j.toString ++ '\n' :: logText js

/-- The lines of a file, the last one (which may be empty) without a newline. -/
def logLines : Str → List Str
  | [] => [[]]
  | c :: s =>
    if c = '\n' then [] :: logLines s
    else match logLines s with
      | l :: ls => (c :: l) :: ls
      | [] => [[c]]

/-- Parse line after line, up to the first that is refused. -/
def readLines : List Str → List (Json F)
  | [] => []
  | l :: ls =>
    match (Json.parse l : Res (Json F)) with
    | .ok j => j :: readLines ls
    | .error _ => []

/-- Reading a log. -/
def readLog (s : Str) : List (Json F) := readLines (logLines s)

/-- What is left of a file if the unfinished last line is cut off: everything up to the last newline. -/
def recovered : Str → Str
  | [] => []
  | c :: s => if '\n' ∈ c :: s then c :: recovered s else []

/-- `k` records of `js` are whole, the newline of the last one perhaps missing, in the first `n` characters of the log. -/
def Whole (js : List (Json F)) (n k : Nat) : Prop :=
  k ≤ js.length ∧ (logText (js.take k)).length ≤ n + 1 ∧ (k < js.length → n + 1 < (logText (js.take (k + 1))).length)

/-- `k` records of `js` are whole, with their newlines, in the first `n` characters of the log. -/
def Ended (js : List (Json F)) (n k : Nat) : Prop :=
  k ≤ js.length ∧ (logText (js.take k)).length ≤ n ∧ (k < js.length → n < (logText (js.take (k + 1))).length)

/-- One run of a writer: it cuts off the unfinished line it finds and appends records, but stops after `n` characters of them have reached the file (a larger `n` is a run that ends properly). -/
structure Session (F : Type) where
  recs : List (Json F)
  n : Nat

/-- The file after a number of runs. -/
def sessions (file : Str) : List (Session F) → Str
  | [] => file
  | a :: l => sessions (recovered file ++ (logText a.recs).take a.n) l

/-- What the file should hold: of every run, the records that were ended. -/
inductive Survives : List (Session F) → List (Json F) → Prop
  | nil : Survives [] []
  | cons {a : Session F} {l k rs} : Ended a.recs a.n k → Survives l rs → Survives (a :: l) (a.recs.take k ++ rs)

end RJ.Spec
