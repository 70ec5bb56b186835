import Mathlib.Algebra.Order.Ring.Rat
import Mathlib.Algebra.Order.Floor.Ring
import Mathlib.Data.Rat.Floor
import Mathlib.Tactic.Linarith
import Verif.Util.Dict
import Verif.Routing.Model

/-!
# Messages as objects, their way and the debug log

Source: `/repo/src/upstage_des/communications/comms.py` and `communications/routing.py`: a `PointToPointCommsManager` or a `RoutingTableCommsManager`
with `Message` objects (numbered), the transmissions it has started, time, and `debug_log`. `Comms` and `Routing` have the same functions without
objects, log and, for routing, time. Actors, stores, texts and dictionaries are numbers, times rationals. Users are supposed not to change the fields of
a `Message`. Within one instant the operations may come in any order; a part of a process that SimPy runs without interruption may be several
operations here, so that more orders are allowed than SimPy has.
-/

namespace Verif.Letters

/-- `MessageContent` (comms.py 25-30); `data := none` is the empty dictionary. -/
structure Content where
  data : Option Nat
  message : Option Nat
deriving DecidableEq, Repr

/-- `Message` (comms.py 33-54), without `header` and `uid`. -/
structure Message where
  sender : Nat
  content : Content
  dest : Nat
  timeSent : Option Rat
  timeReceived : Option Rat
  mode : Option Nat
  created : Rat
deriving DecidableEq, Repr

/-- What `make_put` is given (comms.py 203-209): text, a dictionary, a content, or a `Message`. -/
inductive Given where
  | text (m : Nat)
  | dict (d : Nat)
  | content (c : Content)
  | message (ref : Nat)
deriving DecidableEq, Repr

/-- The texts that are logged (comms.py 312, 315, 368, routing.py 103, 112, 122). -/
inductive Event where
  | waiting
  | stopped
  | sent
  | noRoute
  | moved
  | reached
deriving DecidableEq, Repr

/-- An entry of `debug_log` (comms.py 294-300). `id` is the number of the transmission, which the code does not log. -/
structure Entry where
  id : Nat
  time : Rat
  event : Event
  message : Nat
  current : Nat
  dest : Nat
deriving DecidableEq, Repr

/-- The manager: `routing` is `global_ignore` and the order of sets (see `Routing`) of a `RoutingTableCommsManager`, `none` is point to point. -/
structure Cfg where
  rate : Rat
  max : Rat
  sendTime : Rat
  mode : Option Nat
  routing : Option (Bool × (List Nat → List Nat))
  /-- `store_from_actor` (comms.py 178-201): the store of an actor, `none` if it raises. See `Comms`. -/
  storeOf : Nat → Option Nat
  /-- Which stores of which actors have a capacity limit. -/
  limited : Nat → Nat → Bool

/-- Where a `_do_transmit` process is. -/
inductive Ph where
  /-- At the head of the loop (routing.py 100-105). -/
  | choosing (due : Rat)
  /-- In `_attempt` to `hop`, about to make check number `n` (comms.py 310). -/
  | trying (hop n : Nat) (due : Rat)
  /-- In the delay (comms.py 365, routing.py 114). -/
  | moving (hop : Nat) (due : Rat)
  | putting (store : Nat) (since : Rat)
  | done
  | dropped
  | crashed
deriving DecidableEq, Repr

/-- A `_do_transmit` process with its local variables (routing.py 96-99); `id` and `born` number it and tell when it started. -/
structure Proc where
  id : Nat
  ref : Nat
  dest : Nat
  born : Rat
  curr : Nat
  failed : List Nat
  ph : Ph
deriving DecidableEq, Repr

structure St where
  now : Rat
  degraded : Bool
  links : List (Nat × Nat)
  nodes : List Nat
  net : Routing.Net
  heap : List Message
  incoming : List Nat
  procs : List Proc
  logging : Bool
  log : List Entry

def init (t : Rat) (logging : Bool) : St := ⟨t, false, [], [], [], [], [], [], logging, []⟩

/-- The condition of the `while` in `_attempt` (comms.py 310), with `_link_compare` (266-272). -/
def blocked (s : St) (a b : Nat) : Bool :=
  s.degraded || (if a ∈ s.nodes ∨ b ∈ s.nodes then true else s.links.any fun l => a == l.1 && b == l.2)

/-- `n_tries` (comms.py 308); `none` is the division by zero. -/
def nTries (cfg : Cfg) : Option Int := if cfg.rate = 0 then none else some ⌈cfg.max / cfg.rate⌉

/-- `_log_attempt` (comms.py 287-301). -/
def logAttempt (s : St) (p : Proc) (e : Event) (current dest : Nat) : St :=
  if s.logging then { s with log := s.log ++ [⟨p.id, s.now, e, p.ref, current, dest⟩] } else s

/-- `message.time_sent = self.env.now` (comms.py 371, routing.py 123). -/
def stamp (s : St) (ref : Nat) : St := { s with heap := s.heap.modify ref fun m => { m with timeSent := some s.now } }

def setProc (s : St) (i : Nat) (p : Proc) : St := { s with procs := s.procs.set i p }

/-- The end of `_do_transmit` (comms.py 368-373, routing.py 121-125), up to the `yield`. -/
def deliver (cfg : Cfg) (s : St) (i : Nat) (p : Proc) (e : Event) : St :=
  let s1 := stamp (logAttempt s p e p.curr p.dest) p.ref
  match cfg.storeOf p.dest with
  | none => setProc s1 i { p with ph := .crashed }
  | some st => setProc s1 i { p with ph := .putting st s.now }

/-- After the delay: comms.py 368, or routing.py 116-119. -/
def arriveHop (cfg : Cfg) (s : St) (i : Nat) (p : Proc) (hop : Nat) : St :=
  match cfg.routing with
  | none => deliver cfg s i p .sent
  | some (g, _) => setProc s i { p with curr := hop, failed := if g then p.failed else [], ph := .choosing s.now }

/-- A successful attempt: comms.py 365-366, or routing.py 111-114. -/
def pass (cfg : Cfg) (s : St) (i : Nat) (p : Proc) (hop : Nat) : St :=
  let s1 := match cfg.routing with
    | none => s
    | some _ => logAttempt s p .moved p.curr hop
  if 0 < cfg.sendTime then setProc s1 i { p with ph := .moving hop (s.now + cfg.sendTime) }
  else arriveHop cfg s1 i p hop

/-- An attempt that is given up: comms.py 362-363, or routing.py 107-110. -/
def giveUp (cfg : Cfg) (s : St) (i : Nat) (p : Proc) (hop : Nat) : St :=
  match cfg.routing with
  | none => setProc s i { p with ph := .dropped }
  | some _ => setProc s i { p with failed := p.failed ++ [hop], ph := .choosing s.now }

/-- Check number `n` in `_attempt` (comms.py 308-317). A negative delay is refused by SimPy. -/
def check (cfg : Cfg) (s : St) (i : Nat) (p : Proc) (hop n : Nat) : St :=
  match nTries cfg with
  | none => setProc s i { p with ph := .crashed }
  | some k =>
    if blocked s p.curr hop then
      if (n : Int) = k then giveUp cfg (logAttempt s p .stopped p.curr hop) i p hop
      else
        let s1 := logAttempt s p .waiting p.curr hop
        if cfg.rate < 0 then setProc s1 i { p with ph := .crashed }
        else setProc s1 i { p with ph := .trying hop (n + 1) (s.now + cfg.rate) }
    else pass cfg s i p hop

/-- The head of the loop (routing.py 100-105). -/
def choose (cfg : Cfg) (s : St) (i : Nat) (p : Proc) : St :=
  match cfg.routing with
  | none => s
  | some (_, ord) =>
    if p.curr = p.dest then deliver cfg s i p .reached
    else
      match Routing.selectHop ord s.net p.curr p.dest p.failed with
      | none => setProc (logAttempt s p .noRoute p.curr p.dest) i { p with ph := .dropped }
      | some hop => setProc s i { p with ph := .trying hop 0 s.now }

/-- The time a process waits for. A store without a limit accepts at once. -/
def due (cfg : Cfg) (p : Proc) : Option Rat :=
  match p.ph with
  | .choosing t => some t
  | .trying _ _ t => some t
  | .moving _ t => some t
  | .putting st t => if cfg.limited p.dest st then none else some t
  | _ => none

/-- The content of a message that is made (comms.py 227-237). -/
def contentOf : Given → Content
  | .text m => ⟨none, some m⟩
  | .dict d => ⟨some d, none⟩
  | .content c => c
  | .message _ => ⟨none, none⟩

inductive Op where
  /-- Time passes, not beyond anything that is due. -/
  | advance (d : Rat)
  /-- `make_put` (comms.py 203-245) is called. -/
  | make (g : Given) (source dest : Nat)
  /-- The `Put` with message number `ref` is processed; `incoming` has no capacity limit. -/
  | put (ref : Nat)
  /-- `run` (comms.py 254-264) takes the next message and starts its transmission. -/
  | take
  /-- Process number `i` goes on. -/
  | resume (i : Nat)
  /-- The store accepts the message of process `i`. -/
  | accept (i : Nat)
  | setDegraded (b : Bool)
  | setLinks (l : List (Nat × Nat))
  | setNodes (l : List Nat)
  /-- `connect_nodes` (routing.py 229-248). -/
  | connect (u v : Nat) (twoWay : Bool)
  | setLogging (b : Bool)

/-- What a step shows: the message that a `Put` was made for, or a message in a store. -/
inductive Out where
  | silent
  | made (ref : Nat)
  | arrived (actor store id ref : Nat) (t : Rat)
deriving DecidableEq, Repr

/-- One operation. -/
def step (cfg : Cfg) (s : St) : Op → St × Out
  | .advance d =>
    if 0 ≤ d ∧ ∀ p ∈ s.procs, ∀ t, due cfg p = some t → s.now + d ≤ t then ({ s with now := s.now + d }, .silent) else (s, .silent)
  | .make g source dest =>
    match g with
    | .message ref => (s, .made ref)
    | g => ({ s with heap := s.heap ++ [⟨source, contentOf g, dest, none, none, cfg.mode, s.now⟩] }, .made s.heap.length)
  | .put ref => if ref < s.heap.length then ({ s with incoming := s.incoming ++ [ref] }, .silent) else (s, .silent)
  | .take =>
    match s.incoming with
    | [] => (s, .silent)
    | ref :: r =>
      match s.heap[ref]? with
      | none => (s, .silent)
      | some m =>
        ({ s with incoming := r
                  procs := s.procs ++ [⟨s.procs.length, ref, m.dest, s.now, m.sender, [],
                    if cfg.routing.isSome then .choosing s.now else .trying m.dest 0 s.now⟩] }, .silent)
  | .resume i =>
    match s.procs[i]? with
    | none => (s, .silent)
    | some p =>
      if due cfg p = some s.now then
        match p.ph with
        | .choosing _ => (choose cfg s i p, .silent)
        | .trying hop n _ => (check cfg s i p hop n, .silent)
        | .moving hop _ => (arriveHop cfg s i p hop, .silent)
        | _ => (s, .silent)
      else (s, .silent)
  | .accept i =>
    match s.procs[i]? with
    | none => (s, .silent)
    | some p =>
      match p.ph with
      | .putting st _ => (setProc s i { p with ph := .done }, .arrived p.dest st p.id p.ref s.now)
      | _ => (s, .silent)
  | .setDegraded b => ({ s with degraded := b }, .silent)
  | .setLinks l => ({ s with links := l }, .silent)
  | .setNodes l => ({ s with nodes := l }, .silent)
  | .connect u v two => ({ s with net := Routing.connect s.net u v two }, .silent)
  | .setLogging b => ({ s with logging := b }, .silent)

def run (cfg : Cfg) (s : St) : List Op → St × List Out
  | [] => (s, [])
  | op :: r => ((run cfg (step cfg s op).1 r).1, (step cfg s op).2 :: (run cfg (step cfg s op).1 r).2)

end Verif.Letters
