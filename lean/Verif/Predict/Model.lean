import Mathlib.Algebra.Order.Field.Basic

/-!
# A task and its rehearsal

Sources: `/repo/src/upstage_des/task.py` 368-423 (`rehearse`), 464-523 (`run`, without interrupts); `routines.py` 45-58 (`_run`), 67-86
(`rehearse`); `events.py` 64-147 (`BaseEvent`), 152-248 (`Wait`), 407-422, 438-533, 739-765 (`MultiEvent`, `Any`, `All`); `base.py` 169-195
(`MockEnvironment`); SimPy's event queue, `Timeout`, `Condition` and the resumption of processes, as documented for release 4.

The same code is executed twice: in a rehearsal, with an understudy and the clock of a `MockEnvironment`, and in the simulation, by the event queue and
among other processes. The code is any function that gives the next command from all that was observed before. Waits are the only
events; they may be put into `Any` and `All`, and be yielded again. A multi-event is made when it is yielded and not used again.

Simplified: everything yielded by `run` goes on without interrupts (they are in `Verif.TaskRun`, `Verif.Multi`), and the rehearsal time of a Wait is its
timeout. The real processes other than the task do not touch the actor but for reading it. What an actor's methods do is given by `Actor`: of
what belongs to the actor, and the clock. (In a rehearsal, `actor.env` is the mock.)
-/

namespace Verif.Predict

variable {K : Type} [Field K] [LinearOrder K] [IsStrictOrderedRing K] {A Op Val : Type}

/-- What the code of a task can do with an actor at a time, and what others may do to it in between (`reads`). -/
structure Methods (K A Op Val : Type) where
  step : K → Op → A → A × Val
  reads : Op → Prop

/-- What is yielded: a new `Wait`, the one made as number `k`, or a multi-event. -/
inductive Tree (K : Type) where
  | new (t : K)
  | old (k : Nat)
  | multi (all : Bool) (ms : List (Tree K))

/-- What the code does next: a method of the actor, `env.now`, a yield, `is_complete` of a `Wait`, the begin and the end of a routine, the end. -/
inductive Cmd (K Op : Type) where
  | act (o : Op)
  | clock
  | yield (e : Tree K)
  | complete (k : Nat)
  | enter
  | leave
  | ret

/-- What the code observes. -/
inductive Obs (K Val : Type) where
  | val (v : Val)
  | time (t : K)
  | resumed
  | flag (b : Bool)

/-- The code of a task. -/
abbrev Code (K Op Val : Type) := List (Obs K Val) → Cmd K Op

inductive Status where
  | running | finished | raised
deriving DecidableEq

/-! ## The rehearsal -/

/-- Python's `min` and `max`. -/
def minD : List K → K
  | [] => 0
  | t :: ts => ts.foldl min t

def maxD : List K → K
  | [] => 0
  | t :: ts => ts.foldl max t

/-- `aggregation_function` (511-520, 743-752). -/
def agg (all : Bool) (ts : List K) : K := if all then maxD ts else minD ts

mutual
/-- What can be made: no negative timeouts (events.py 200-201), only events there are. -/
def valid (n : Nat) : Tree K → Bool
  | .new t => 0 ≤ t
  | .old k => k < n
  | .multi _ ms => validL n ms
def validL (n : Nat) : List (Tree K) → Bool
  | [] => true
  | m :: ms => valid n m && validL n ms
end

mutual
/-- Where `calculate_time_to_complete` raises: `min` and `max` of nothing. -/
def hasTime : Tree K → Bool
  | .new _ => true
  | .old _ => true
  | .multi _ ms => !ms.isEmpty && hasTimeL ms
def hasTimeL : List (Tree K) → Bool
  | [] => true
  | m :: ms => hasTime m && hasTimeL ms
end

mutual
/-- `calculate_time_to_complete` (64-70, 438-455); `len` gives the timeouts of the Waits there are. -/
def total (len : Nat → K) : Tree K → K
  | .new t => t
  | .old k => len k
  | .multi all ms => agg all (totalL len ms)
def totalL (len : Nat → K) : List (Tree K) → List K
  | [] => []
  | m :: ms => total len m :: totalL len ms
end

mutual
/-- The timeouts of the new Waits, from left to right. -/
def news : Tree K → List K
  | .new t => [t]
  | .old _ => []
  | .multi _ ms => newsL ms
def newsL : List (Tree K) → List K
  | [] => []
  | m :: ms => news m ++ newsL ms
end

mutual
/-- The numbers of the Waits of a tree whose first new one gets number `n`. -/
def waits (n : Nat) : Tree K → List Nat
  | .new _ => [n]
  | .old k => [k]
  | .multi _ ms => waitsL n ms
def waitsL (n : Nat) : List (Tree K) → List Nat
  | [] => []
  | m :: ms => waits n m ++ waitsL (n + (news m).length) ms
end

/-- The Waits among the direct members, with their times. -/
def direct (len : Nat → K) (n : Nat) : List (Tree K) → List (Nat × K)
  | [] => []
  | .new t :: ms => (n, t) :: direct len (n + 1) ms
  | .old k :: ms => (k, len k) :: direct len n ms
  | .multi _ ms' :: ms => direct len (n + (newsL ms').length) ms

/-- The Waits directly below an event. -/
def lastOf (len : Nat → K) (n : Nat) : Tree K → List Nat
  | .new _ => [n]
  | .old k => [k]
  | .multi _ ms => (direct len n ms).map (·.1)

/-- A `Wait` in a rehearsal: `rehearsal_time_to_complete`, `_done_rehearsing`. -/
structure RWait (K : Type) where
  len : K
  done : Bool

/-- The timeout of a `Wait`. -/
def lenOf (ws : List (RWait K)) (k : Nat) : K := (ws[k]?.map (·.len)).getD 0

/-- `rehearse` of an event (133-147, 485-504), to the Waits: `_start_rehearsal` sets all of them to not done, `_finish_rehearsal` the event
itself, or the direct members that are over by the end. -/
def finish (ws : List (RWait K)) (e : Tree K) : List (RWait K) :=
  let len := lenOf ws
  let ws' := ws ++ (news e).map fun t => ⟨t, false⟩
  let started := waits ws.length e
  let ended : List Nat := match e with
    | .new _ => [ws.length]
    | .old k => [k]
    | .multi _ ms => ((direct len ws.length ms).filter fun (p : Nat × K) => p.2 ≤ total len e).map (·.1)
  ws'.mapIdx fun k w => if k ∈ ended then { w with done := true } else if k ∈ started then { w with done := false } else w

/-- A rehearsal: the mock clock, the time added up in a routine, the understudy, the Waits, what was observed, and (for the statement of theorems)
the Waits directly below the last event yielded. -/
structure RSt (K A Val : Type) where
  now : K
  routine : Option K
  actor : A
  waits : List (RWait K)
  hist : List (Obs K Val)
  status : Status
  last : List Nat

/-- One command in a rehearsal (task.py 393-417, routines.py 82-86). The time of a routine is added up and passes when it is over. -/
def rstep (M : Methods K A Op Val) (s : RSt K A Val) : Cmd K Op → RSt K A Val
  | .act o => { s with actor := (M.step s.now o s.actor).1, hist := s.hist ++ [.val (M.step s.now o s.actor).2] }
  | .clock => { s with hist := s.hist ++ [.time s.now] }
  | .yield e =>
    if valid s.waits.length e && hasTime e then
      let t := total (lenOf s.waits) e
      { s with
        waits := finish s.waits e
        last := lastOf (lenOf s.waits) s.waits.length e
        now := if s.routine.isSome then s.now else s.now + t
        routine := s.routine.map (· + t)
        hist := s.hist ++ [.resumed] }
    else { s with status := .raised }
  | .complete k =>
    match s.waits[k]? with
    | some w => { s with hist := s.hist ++ [.flag w.done] }
    | none => { s with status := .raised }
  | .enter => if s.routine.isSome then { s with status := .raised } else { s with routine := some 0, hist := s.hist ++ [.resumed] }
  | .leave =>
    match s.routine with
    | some t => { s with routine := none, now := s.now + t, hist := s.hist ++ [.resumed] }
    | none => { s with status := .raised }
  | .ret => if s.routine.isSome then { s with status := .raised } else { s with status := .finished }

/-- The rehearsal begins with a copy of the actor (`a` here is the understudy, see `understudy` in `Linear`) at the time of the original (task.py 351-366, 384-395). -/
def rinit (t0 : K) (a : A) : RSt K A Val := ⟨t0, none, a, [], [], .running, []⟩

/-- The rehearsal after `n` commands. -/
def rehearse (M : Methods K A Op Val) (code : Code K Op Val) (t0 : K) (a : A) : Nat → RSt K A Val
  | 0 => rinit t0 a
  | n + 1 =>
    let s := rehearse M code t0 a n
    if s.status = .running then rstep M s (code s.hist) else s

/-! ## The simulation -/

/-- What is in the event queue: the timeout of a `Wait`, a condition that has succeeded, or something of another process. -/
inductive Ent where
  | timeout (k : Nat)
  | cond (id : Nat)
  | other
deriving DecidableEq

/-- An entry of the queue: its time, whether it is urgent, what it is. -/
structure Item (K : Type) where
  time : K
  urgent : Bool
  ent : Ent

/-- Whether one entry goes before a new one: by time and priority, and first come, first served. -/
def Item.before (x y : Item K) : Bool := decide (x.time < y.time) || (decide (x.time = y.time) && (x.urgent || !y.urgent))

/-- `Environment.schedule`: the heap as the list of its entries in the order in which they will be taken. -/
def schedule (y : Item K) : List (Item K) → List (Item K)
  | [] => [y]
  | x :: q => if x.before y then x :: schedule y q else y :: x :: q

def scheduleL (ys : List (Item K)) (q : List (Item K)) : List (Item K) := ys.foldl (fun q y => schedule y q) q

inductive CStat where
  | pending | triggered | processed
deriving DecidableEq

/-- The SimPy events of what the task waits for: the timeout of a `Wait`, or a `Condition` (`AllOf` or `AnyOf`) with the number of events counted
so far. -/
inductive CTree where
  | leaf (k : Nat)
  | node (id : Nat) (all : Bool) (count : Nat) (st : CStat) (ms : List CTree)

/-- A `Wait` with its `Timeout`: the time it is due, and `processed`. -/
structure Wait (K : Type) where
  len : K
  due : K
  done : Bool

/-- `Condition._check`, `n` times: counts, and succeeds if `all_events` or `any_events` say so. -/
def check (all : Bool) (size : Nat) : Nat → Nat × CStat → Nat × CStat
  | 0, s => s
  | n + 1, (c, st) => check all size n (if st = .pending then (c + 1, if !all || c + 1 = size then .triggered else .pending) else (c, st))

/-- Whether a member has been processed. -/
def CTree.processed (done : Nat → Bool) : CTree → Bool
  | .leaf k => done k
  | .node _ _ _ st _ => st = .processed

/-- `processed` of the `Wait`s there are. -/
def doneOf (ws : List (Wait K)) (k : Nat) : Bool := (ws[k]?.map (·.done)).getD false

/-- What `as_event` has made so far: Waits, the next number of a condition, what it has put into the queue. -/
structure Making (K : Type) where
  waits : List (Wait K)
  next : Nat
  sched : List (Item K)

mutual
/-- `as_event` (events.py 238-248, 407-422) at time `now`, and `Condition.__init__`: counts the events that have been processed already; without events it succeeds at
once. -/
def build (now : K) (b : Making K) : Tree K → Making K × CTree
  | .new t => (⟨b.waits ++ [⟨t, now + t, false⟩], b.next, b.sched ++ [⟨now + t, false, .timeout b.waits.length⟩]⟩, .leaf b.waits.length)
  | .old k => (b, .leaf k)
  | .multi all ms =>
    let r := buildL now b ms
    let c := if r.2.isEmpty then (0, .triggered) else check all r.2.length (r.2.countP (CTree.processed (doneOf r.1.waits))) (0, .pending)
    (⟨r.1.waits, r.1.next + 1, r.1.sched ++ if c.2 = .triggered then [⟨now, false, .cond r.1.next⟩] else []⟩, .node r.1.next all c.1 c.2 r.2)
def buildL (now : K) (b : Making K) : List (Tree K) → Making K × List CTree
  | [] => (b, [])
  | m :: ms =>
    let r := build now b m
    let r' := buildL now r.1 ms
    (r'.1, r.2 :: r'.2)
end

/-- Whether an entry of the queue is that of a node. -/
def CTree.is (x : Ent) : CTree → Bool
  | .leaf k => x = .timeout k
  | .node id .. => x = .cond id

mutual
/-- The callbacks of an event that is processed: `_check` of the conditions it is in, those made first before the others. Also gives the numbers of the
conditions that succeed. -/
def hit (x : Ent) : CTree → CTree × List Nat
  | .leaf k => (.leaf k, [])
  | .node id all c st ms =>
    let r := hitL x ms
    let s := check all ms.length (ms.countP (CTree.is x)) (c, st)
    (.node id all s.1 (if x = .cond id then .processed else s.2) r.1, r.2 ++ if st = .pending ∧ s.2 = .triggered then [id] else [])
def hitL (x : Ent) : List CTree → List CTree × List Nat
  | [] => ([], [])
  | m :: ms => ((hit x m).1 :: (hitL x ms).1, (hit x m).2 ++ (hitL x ms).2)
end

/-- The simulation: the clock, the event queue, the actor, the Waits and conditions made, what the task waits for, whether it is in a routine, and what it has
observed. -/
structure St (K A Val : Type) where
  now : K
  queue : List (Item K)
  actor : A
  waits : List (Wait K)
  next : Nat
  waiting : Option CTree
  routine : Bool
  hist : List (Obs K Val)
  status : Status

/-- One command of the task in the simulation (task.py 489-523). Yielding an event that has been processed goes on at once. -/
def exec (M : Methods K A Op Val) (s : St K A Val) : Cmd K Op → St K A Val
  | .act o => { s with actor := (M.step s.now o s.actor).1, hist := s.hist ++ [.val (M.step s.now o s.actor).2] }
  | .clock => { s with hist := s.hist ++ [.time s.now] }
  | .yield e =>
    if valid s.waits.length e then
      let r := build s.now ⟨s.waits, s.next, []⟩ e
      let s := { s with waits := r.1.waits, next := r.1.next, queue := scheduleL r.1.sched s.queue }
      if r.2.processed (doneOf r.1.waits) then { s with hist := s.hist ++ [.resumed] } else { s with waiting := some r.2 }
    else { s with status := .raised }
  | .complete k =>
    match s.waits[k]? with
    | some w => { s with hist := s.hist ++ [.flag w.done] }
    | none => { s with status := .raised }
  | .enter => if s.routine then { s with status := .raised } else { s with routine := true, hist := s.hist ++ [.resumed] }
  | .leave => if s.routine then { s with routine := false, hist := s.hist ++ [.resumed] } else { s with status := .raised }
  | .ret => if s.routine then { s with status := .raised } else { s with status := .finished }

/-- The callbacks of an event of the task: conditions, or the task itself goes on. -/
def process (s : St K A Val) (x : Ent) : St K A Val :=
  match s.waiting with
  | none => s
  | some c =>
    let r := hit x c
    let s := { s with queue := scheduleL (r.2.map fun id => ⟨s.now, false, .cond id⟩) s.queue }
    if c.is x then { s with waiting := none, hist := s.hist ++ [.resumed] } else { s with waiting := some r.1 }

/-- What other processes do when it is their turn: read the actor, and put things into the queue, with delays. -/
structure Other (K Op : Type) where
  reads : List Op
  later : List (K × Bool)

/-- Reads the actor. -/
def observe (M : Methods K A Op Val) (now : K) (a : A) (os : List Op) : A := os.foldl (fun a o => (M.step now o a).1) a

/-- `Environment.step`: takes the first entry of the queue. `f` is what another process does if it is its turn. -/
def tick (M : Methods K A Op Val) (f : Other K Op) (s : St K A Val) : St K A Val :=
  match s.queue with
  | [] => s
  | i :: q =>
    let s := { s with now := i.time, queue := q }
    match i.ent with
    | .other => { s with actor := observe M s.now s.actor f.reads, queue := scheduleL (f.later.map fun p => ⟨s.now + p.1, p.2, .other⟩) s.queue }
    | .timeout k => process { s with waits := s.waits.mapIdx fun j w => if j = k then { w with done := true } else w } (.timeout k)
    | .cond id => process s (.cond id)

/-- The task executes its next command, or it waits or is over, and the next event is processed. -/
def step (M : Methods K A Op Val) (code : Code K Op Val) (f : Other K Op) (s : St K A Val) : St K A Val :=
  if s.status = .running ∧ s.waiting.isNone then exec M s (code s.hist) else tick M f s

/-- The simulation from the begin of the task, with what other processes do at their turns. -/
def simulate (M : Methods K A Op Val) (code : Code K Op Val) (s : St K A Val) : List (Other K Op) → St K A Val
  | [] => s
  | f :: fs => simulate M code (step M code f s) fs

/-- The task begins, while other things are in the queue. -/
def init (t0 : K) (a : A) (q : List (Item K)) : St K A Val := ⟨t0, q, a, [], 0, none, false, [], .running⟩

end Verif.Predict
