import Verif.Util.Dict

/-!
# Model of actor knowledge

Source: `actor.py` 567-713, and the pass-through methods of `task.py` 226-340. Logging (`_log_caller`, 598-617) has
no effect on knowledge and is left out. Names are of any type with decidable equality, values of any type.
-/

namespace Verif.Know

variable {κ V : Type} [DecidableEq κ]

inductive Out (κ V : Type) where
  | done
  /-- Python's `None` is `none`. -/
  | value (v : Option V)
  | values (d : List (κ × Option V))
  | raised
deriving DecidableEq

/-- `get_knowledge` (567-579). -/
def getK (d : Dict κ V) (n : κ) (must : Bool) : Out κ V :=
  if must && !d.has n then .raised else .value (d.get? n)

/-- `set_knowledge` (619-645). -/
def setK (d : Dict κ V) (n : κ) (v : V) (overwrite : Bool) : Dict κ V × Out κ V :=
  if d.has n && !overwrite then (d, .raised) else (d.set n v, .done)

/-- `clear_knowledge` (647-662). -/
def clearK (d : Dict κ V) (n : κ) : Dict κ V × Out κ V :=
  if !d.has n then (d, .raised) else (d.del n, .done)

/-- `get_and_clear_knowledge` (581-596). -/
def getClear (d : Dict κ V) (n : κ) : Dict κ V × Out κ V :=
  match getK d n true with
  | .value v =>
    match clearK d n with
    | (d, .done) => (d, .value v)
    | (d, _) => (d, .raised)
  | _ => (d, .raised)

/-- `set_bulk_knowledge` (664-677): a loop over the items of a dictionary. -/
def setBulk (d : Dict κ V) : List (κ × V) → Bool → Dict κ V × Out κ V
  | [], _ => (d, .done)
  | (n, v) :: r, o =>
    match setK d n v o with
    | (d, .done) => setBulk d r o
    | (d, _) => (d, .raised)

/-- `clear_bulk_knowledge` (679-688). -/
def clearBulk (d : Dict κ V) : List κ → Dict κ V × Out κ V
  | [] => (d, .done)
  | n :: r =>
    match clearK d n with
    | (d, .done) => clearBulk d r
    | (d, _) => (d, .raised)

/-- `get_bulk_knowledge` (690-700): a dictionary comprehension. -/
def getBulk (d : Dict κ V) (must : Bool) : List κ → Dict κ (Option V) → Out κ V
  | [], acc => .values acc
  | n :: r, acc =>
    match getK d n must with
    | .value v => getBulk d must r (acc.set n v)
    | _ => .raised

/-- `get_and_clear_bulk_knowledge` (702-713): a dictionary comprehension. -/
def getClearBulk (d : Dict κ V) : List κ → Dict κ (Option V) → Dict κ V × Out κ V
  | [], acc => (d, .values acc)
  | n :: r, acc =>
    match getClear d n with
    | (d, .value v) => getClearBulk d r (acc.set n v)
    | (d, _) => (d, .raised)

inductive Op (κ V : Type) where
  | get (n : κ) (must : Bool)
  | set (n : κ) (v : V) (overwrite : Bool)
  | clear (n : κ)
  | getClear (n : κ)
  | setBulk (kv : List (κ × V)) (overwrite : Bool)
  | clearBulk (ns : List κ)
  | getBulk (ns : List κ) (must : Bool)
  | getClearBulk (ns : List κ)
deriving DecidableEq

def step (d : Dict κ V) : Op κ V → Dict κ V × Out κ V
  | .get n must => (d, getK d n must)
  | .set n v o => setK d n v o
  | .clear n => clearK d n
  | .getClear n => getClear d n
  | .setBulk kv o => setBulk d kv o
  | .clearBulk ns => clearBulk d ns
  | .getBulk ns must => (d, getBulk d must ns [])
  | .getClearBulk ns => getClearBulk d ns []

/-- Final knowledge and the results of all calls. -/
def run (d : Dict κ V) : List (Op κ V) → Dict κ V × List (Out κ V)
  | [] => (d, [])
  | op :: ops => ((run (step d op).1 ops).1, (step d op).2 :: (run (step d op).1 ops).2)

end Verif.Know
