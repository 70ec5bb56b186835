import Verif.Util.Log

/-!
# Model of stores: `resources/sorted.py`, `resources/monitoring.py` (stores), `events.py` `Get`/`Put`

The queueing discipline is SimPy's (`simpy.resources.base` / `.store`, not part of the repository; see
DESIGN.md §2): a put/get request is appended to its queue, the queue is tried at once, and again when an
event of the opposite kind is *processed*.  A triggered request waits in the event queue `evq` until the
kernel processes it; only then is the waiting task resumed.

Simplifications: items are elements of a type `ι` whose Lean equality is Python identity (`is`); Python
`==` and truth value of items are parameters.  All triggered events are due at the current time, so `evq`
is a FIFO list; the clock moves only when it is empty.
-/

namespace Verif.Store

/-! ## `SortedFilterStore._do_get` (sorted.py:83-100) -/

/-- The arguments of a `SortedFilterGet` (sorted.py:43-53, 106-133). `sorter` is the key function. -/
structure SReq (ι κ : Type) where
  filter : ι → Bool
  sorter : Option (ι → κ)
  reverse : Bool

variable {ι κ : Type}

/-- The comparison at sorted.py:91: `min_val is None or (val > min_val if reverse else val < min_val)`. -/
def better [LinearOrder κ] (reverse : Bool) (val : κ) (minVal : Option κ) : Bool :=
  match minVal with
  | none => true
  | some m => if reverse then decide (m < val) else decide (val < m)

/-- The loop sorted.py:87-96, carrying `(min_item, min_val)`; without a sorter it breaks at the first
match. -/
def scan [LinearOrder κ] (r : SReq ι κ) : List ι → Option ι → Option κ → Option ι
  | [], minItem, _ => minItem
  | x :: xs, minItem, minVal =>
    if r.filter x then
      match r.sorter with
      | some key =>
        let val := key x
        if better r.reverse val minVal then scan r xs (some x) (some val)
        else scan r xs minItem minVal
      | none => some x
    else scan r xs minItem minVal

/-- Python `list.remove(x)`: drop the first element `==` to `x`. -/
def removeFirst (eqv : ι → ι → Bool) (x : ι) : List ι → List ι
  | [] => []
  | y :: ys => if eqv y x then ys else y :: removeFirst eqv x ys

/-- `_do_get` of the sorted store (sorted.py:83-100): the item handed out and the remaining items, or
`none` when the request is left waiting.  `truthy` is the test `if min_item:` of line 97. -/
def sortedSel [LinearOrder κ] (eqv : ι → ι → Bool) (truthy : ι → Bool) (r : SReq ι κ)
    (items : List ι) : Option (ι × List ι) :=
  match scan r items none none with
  | none => none
  | some x => if truthy x then some (x, removeFirst eqv x items) else none

/-- `simpy.Store._do_get`: pop the oldest item. -/
def fifoSel (_ : Unit) : List ι → Option (ι × List ι)
  | [] => none
  | x :: xs => some (x, xs)

/-- `simpy.FilterStore._do_get` as used by `events.FilterGet` (events.py:714-736): the first item
matching the filter; removal is by `==`. -/
def filterSel (eqv : ι → ι → Bool) (f : ι → Bool) (items : List ι) : Option (ι × List ι) :=
  match items.find? f with
  | none => none
  | some x => some (x, removeFirst eqv x items)

/-! ## Queues, triggering, monitoring -/

variable {γ ν : Type}

/-- What kind of store: how a get request selects (`sel`), whether the get loop goes on to the next
request (`proceed`: the return value of `_do_get`, falsy for `Store`, `True` for the filter stores), and
the recording function `item_func` (monitoring.py:81, 140). -/
structure Cfg (ι γ ν : Type) where
  sel : γ → List ι → Option (ι × List ι)
  proceed : Bool
  itemFunc : List ι → ν

/-- A triggered, not yet processed request event. -/
inductive Ev (ι : Type) where
  | put (id : Nat)
  | got (id : Nat) (x : ι)
deriving DecidableEq, Repr

/-- A store, its request queues, the kernel's queue of triggered events, and the monitoring log
`_quantities` (monitoring.py:82).  `waiting` lists the requests whose task was not detached from the event
by an interrupt (entries of processed requests are irrelevant).
`accepted` (items that entered), `delivered` (items received by tasks) and `lost` (items of processed
gets without a waiter) are observations of what happened, never read by the code. -/
structure St (ι γ ν : Type) where
  cap : Option Nat
  items : List ι
  putQ : List (Nat × ι)
  getQ : List (Nat × γ)
  evq : List (Ev ι)
  waiting : List Nat
  nextId : Nat
  now : Rat
  log : List (Rat × ν)
  accepted : List (Nat × ι)
  delivered : List (Nat × ι)
  lost : List (Nat × ι)

/-- An empty monitored store (monitoring.py:58-82). -/
def init (c : Cfg ι γ ν) (cap : Option Nat) (now : Rat) : St ι γ ν :=
  { cap, items := [], putQ := [], getQ := [], evq := [], waiting := [], nextId := 0, now,
    log := [(now, c.itemFunc [])], accepted := [], delivered := [], lost := [] }

/-- `_record` (monitoring.py:84-87, 143-146): append unless the value equals the last one recorded.
(`call == "environment"` never happens in the code base and is left out.) -/
def record [DecidableEq ν] (c : Cfg ι γ ν) (s : St ι γ ν) : St ι γ ν :=
  let v := c.itemFunc s.items
  if s.log.getLast?.map (·.2) ≠ some v then { s with log := s.log ++ [(s.now, v)] } else s

/-- Room for one more item (`simpy.Store._do_put`). -/
def hasRoom (s : St ι γ ν) : Bool :=
  match s.cap with
  | none => true
  | some n => decide (s.items.length < n)

/-- `_trigger_put` with `_do_put` (monitoring.py:89-101): `_do_put` returns `None`, so only the oldest
waiting put is tried. -/
def trigPut [DecidableEq ν] (c : Cfg ι γ ν) (s : St ι γ ν) : St ι γ ν :=
  match s.putQ with
  | [] => record c s
  | (i, x) :: q =>
    if hasRoom s then
      record c (record c
        { s with items := s.items ++ [x], putQ := q, evq := s.evq ++ [.put i],
                 accepted := s.accepted ++ [(i, x)] })
    else record c s

/-- The loop of `_trigger_get`: try each waiting get in order, recording after each success
(monitoring.py:103-107, 161-165, 270-274). Returns the requests still waiting and the new state. -/
def getLoop [DecidableEq ν] (c : Cfg ι γ ν) : List (Nat × γ) → St ι γ ν → List (Nat × γ) × St ι γ ν
  | [], s => ([], s)
  | (i, g) :: q, s =>
    match c.sel g s.items with
    | some (x, rest) =>
      let s1 := record c { s with items := rest, evq := s.evq ++ [.got i x] }
      if c.proceed then getLoop c q s1 else (q, s1)
    | none =>
      if c.proceed then
        let r := getLoop c q s
        ((i, g) :: r.1, r.2)
      else ((i, g) :: q, s)

/-- `_trigger_get` (monitoring.py:93-95, 152-154). -/
def trigGet [DecidableEq ν] (c : Cfg ι γ ν) (s : St ι γ ν) : St ι γ ν :=
  let r := getLoop c s.getQ s
  record c { r.2 with getQ := r.1 }

/-- A user call or a kernel step. `interrupt id`: the task waiting on request `id` is interrupted and the
request is cancelled by the task machinery. -/
inductive Op (ι γ : Type) where
  | put (x : ι)
  | get (g : γ)
  | interrupt (id : Nat)
  | process
  | advance (t : Rat)

/-- SimPy `Put.__init__`: the new request joins the put queue; its task waits for it. -/
def enqPut (s : St ι γ ν) (x : ι) : St ι γ ν :=
  { s with putQ := s.putQ ++ [(s.nextId, x)], waiting := s.waiting ++ [s.nextId],
           nextId := s.nextId + 1 }

/-- SimPy `Get.__init__`: the new request joins the get queue; its task waits for it. -/
def enqGet (s : St ι γ ν) (g : γ) : St ι γ ν :=
  { s with getQ := s.getQ ++ [(s.nextId, g)], waiting := s.waiting ++ [s.nextId],
           nextId := s.nextId + 1 }

/-- `yield Put(store, x)`: `Put.as_event` (events.py:337-348) creates the SimPy request. -/
def doPut [DecidableEq ν] (c : Cfg ι γ ν) (s : St ι γ ν) (x : ι) : St ι γ ν :=
  trigPut c (enqPut s x)

/-- `yield Get(store, …)`: `Get.as_event` (events.py:583-595). -/
def doGet [DecidableEq ν] (c : Cfg ι γ ν) (s : St ι γ ν) (g : γ) : St ι γ ν :=
  trigGet c (enqGet s g)

/-- The waiting task is detached from the event (SimPy interrupt) and `BaseRequestEvent.cancel`
(events.py:278-284) runs: if the event is not processed, SimPy's `cancel`, which removes the request from
its queue only if it is not yet triggered. -/
def doInterrupt (s : St ι γ ν) (id : Nat) : St ι γ ν :=
  { s with
    waiting := s.waiting.filter (fun i => i ≠ id)
    putQ := s.putQ.filter (fun p => p.1 ≠ id)
    getQ := s.getQ.filter (fun p => p.1 ≠ id) }

/-- The kernel processes the next triggered event: first the store's own callback (try the opposite
queue), then the waiting task, if any, is resumed with the value. -/
def doProcess [DecidableEq ν] (c : Cfg ι γ ν) (s : St ι γ ν) : St ι γ ν :=
  match s.evq with
  | [] => s
  | .put _ :: q =>
    trigGet c { s with evq := q }
  | .got i x :: q =>
    let s1 := trigPut c { s with evq := q }
    if i ∈ s.waiting then
      { s1 with delivered := s1.delivered ++ [(i, x)] }
    else { s1 with lost := s1.lost ++ [(i, x)] }

/-- The clock moves forward, only when no triggered event is left at the current time. -/
def doAdvance (s : St ι γ ν) (t : Rat) : St ι γ ν :=
  if s.now ≤ t ∧ s.evq = [] then { s with now := t } else s

/-- One operation. -/
def step [DecidableEq ν] (c : Cfg ι γ ν) (s : St ι γ ν) : Op ι γ → St ι γ ν
  | .put x => doPut c s x
  | .get g => doGet c s g
  | .interrupt id => doInterrupt s id
  | .process => doProcess c s
  | .advance t => doAdvance s t

/-- A history. -/
def run [DecidableEq ν] (c : Cfg ι γ ν) (s : St ι γ ν) (ops : List (Op ι γ)) : St ι γ ν :=
  ops.foldl (step c) s

/-- The quantity observed after the creation and after every operation, with its time. -/
def snapshots [DecidableEq ν] (c : Cfg ι γ ν) (s : St ι γ ν) : List (Op ι γ) → List (Rat × ν)
  | [] => [(s.now, c.itemFunc s.items)]
  | op :: ops => (s.now, c.itemFunc s.items) :: snapshots c (step c s op) ops

end Verif.Store
