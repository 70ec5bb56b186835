import Mathlib.Algebra.Order.Ring.Rat
import Mathlib.Algebra.Order.Floor.Ring
import Mathlib.Data.Rat.Floor
import Verif.Util.Dict

/-!
# Point-to-point communications (`communications/comms.py`)

A `PointToPointCommsManager`, the actors that use it and the processes it starts. Actors and store names are numbers.
Times are rationals. The parts of one instant may happen in any order SimPy allows; the operations say which part happens
next. A failed process is kept as `crashed` (in SimPy the simulation stops). Logging (`_log_attempt`) is not modelled.
-/

namespace Verif.Comms

/-- `Message` (`comms.py:34-54`): the fields that matter here. -/
structure Msg where
  sender : Nat
  dest : Nat
  content : Nat
deriving DecidableEq, Repr

/-- `retry_rate`, `retry_max_time`, `send_time`, `mode` of the manager, and the stores of the actors: for each actor its
states in order, with the modes of those that are a `CommunicationStore` (`none`: some other state). -/
structure Cfg where
  rate : Rat
  max : Rat
  sendTime : Rat
  mode : Nat
  states : Nat → List (Nat × Option (List Nat))
  /-- Which stores of which actors have a capacity limit. -/
  limited : Nat → Nat → Bool

/-- Where a `_do_transmit` process is: about to make check number `n` (from 0) at `due`; in the sending delay; waiting for
the store to accept the message; or over. -/
inductive Ph where
  | trying (n : Nat) (due : Rat)
  | sending (due : Rat)
  | putting (store : Nat) (since : Rat)
  | done
  | dropped
  | crashed
deriving DecidableEq, Repr

/-- A `_do_transmit` process: which message that went through the manager (numbered in order), and when it started. -/
structure Proc where
  id : Nat
  msg : Msg
  born : Rat
  ph : Ph
deriving DecidableEq, Repr

structure St where
  now : Rat
  degraded : Bool
  links : List (Nat × Nat)
  nodes : List Nat
  connected : Dict Nat Nat
  incoming : List (Nat × Msg)
  nextId : Nat
  procs : List Proc

def init (t : Rat) : St := ⟨t, false, [], [], [], [], 0, []⟩

/-- `_get_state` (167-176). -/
def getState (mode : Nat) : List (Nat × Option (List Nat)) → Option Nat
  | [] => none
  | (_, none) :: r => getState mode r
  | (name, some modes) :: r => if mode ∈ modes then some name else getState mode r

/-- `store_from_actor` (172-201); `none` is an exception (no store for the mode, or `getattr` of a name the actor does not
have). -/
def storeOf (cfg : Cfg) (s : St) (actor : Nat) : Option Nat :=
  match s.connected.get? actor with
  | some name => if name ∈ (cfg.states actor).map (·.1) then some name else none
  | none => getState cfg.mode (cfg.states actor)

/-- `_link_compare` (266-272). -/
def linkCompare (s : St) (a b : Nat) : Bool :=
  if a ∈ s.nodes ∨ b ∈ s.nodes then true
  else s.links.any fun l => a == l.1 && b == l.2

/-- The condition of the `while` in `_attempt` (310). -/
def blocked (s : St) (a b : Nat) : Bool := s.degraded || linkCompare s a b

/-- `n_tries` (308); `none` is the division by zero. -/
def nTries (cfg : Cfg) : Option Int := if cfg.rate = 0 then none else some ⌈cfg.max / cfg.rate⌉

/-- What a step shows: a check of the link for a message, or the message arriving in a store of an actor. -/
inductive Out where
  | silent
  | checked (id : Nat) (t : Rat) (blocked : Bool)
  | arrived (actor store id : Nat) (content : Nat) (t : Rat)
deriving DecidableEq, Repr

/-- The message is put (357-373, after the delay): the store is looked up now. -/
def startPut (cfg : Cfg) (s : St) (m : Msg) : Ph :=
  match storeOf cfg s m.dest with
  | none => .crashed
  | some st => .putting st s.now

/-- One round of the `while` in `_attempt` (310-316) and what follows it in `_do_transmit` (361-373). A negative delay is
refused by SimPy. -/
def check (cfg : Cfg) (s : St) (m : Msg) (n : Nat) : Ph :=
  match nTries cfg with
  | none => .crashed
  | some k =>
    if blocked s m.sender m.dest then
      if (n : Int) = k then .dropped
      else if cfg.rate < 0 then .crashed
      else .trying (n + 1) (s.now + cfg.rate)
    else if 0 < cfg.sendTime then .sending (s.now + cfg.sendTime)
    else startPut cfg s m

/-- The time a process waits for. A store without a limit accepts at once. -/
def due (cfg : Cfg) (p : Proc) : Option Rat :=
  match p.ph with
  | .trying _ t => some t
  | .sending t => some t
  | .putting st t => if cfg.limited p.msg.dest st then none else some t
  | _ => none

inductive Op where
  /-- Time passes, not beyond anything that is due. -/
  | advance (d : Rat)
  /-- The put made by `make_put` (203-245) for a message that is not a `Message` yet is processed; the incoming store has
  no capacity limit. -/
  | send (source dest content : Nat)
  /-- The same with a `Message` object: used as it is, whatever source and destination are given (225-226). -/
  | resend (m : Msg) (source dest : Nat)
  /-- The `run` process (254-264) takes the next message and starts its transmission. -/
  | take
  /-- Process number `i` is resumed. -/
  | resume (i : Nat)
  /-- The store accepts the message of process `i`. -/
  | accept (i : Nat)
  | setDegraded (b : Bool)
  | setLinks (l : List (Nat × Nat))
  | setNodes (l : List Nat)
  | connect (actor store : Nat)
deriving DecidableEq

def step (cfg : Cfg) (s : St) : Op → St × Out
  | .advance d =>
    if 0 ≤ d ∧ ∀ p ∈ s.procs, ∀ t, due cfg p = some t → s.now + d ≤ t then ({ s with now := s.now + d }, .silent)
    else (s, .silent)
  | .send source dest content =>
    ({ s with incoming := s.incoming ++ [(s.nextId, ⟨source, dest, content⟩)], nextId := s.nextId + 1 }, .silent)
  | .resend m _ _ =>
    ({ s with incoming := s.incoming ++ [(s.nextId, m)], nextId := s.nextId + 1 }, .silent)
  | .take =>
    match s.incoming with
    | [] => (s, .silent)
    | (id, m) :: r => ({ s with incoming := r, procs := s.procs ++ [⟨id, m, s.now, .trying 0 s.now⟩] }, .silent)
  | .resume i =>
    match s.procs[i]? with
    | none => (s, .silent)
    | some p =>
      match p.ph with
      | .trying n due =>
        if due = s.now then
          ({ s with procs := s.procs.set i { p with ph := check cfg s p.msg n } },
            if cfg.rate = 0 then .silent else .checked p.id s.now (blocked s p.msg.sender p.msg.dest))
        else (s, .silent)
      | .sending due =>
        if due = s.now then ({ s with procs := s.procs.set i { p with ph := startPut cfg s p.msg } }, .silent)
        else (s, .silent)
      | _ => (s, .silent)
  | .accept i =>
    match s.procs[i]? with
    | none => (s, .silent)
    | some p =>
      match p.ph with
      | .putting st _ => ({ s with procs := s.procs.set i { p with ph := .done } },
          .arrived p.msg.dest st p.id p.msg.content s.now)
      | _ => (s, .silent)
  | .setDegraded b => ({ s with degraded := b }, .silent)
  | .setLinks l => ({ s with links := l }, .silent)
  | .setNodes l => ({ s with nodes := l }, .silent)
  | .connect a st => ({ s with connected := s.connected.set a st }, .silent)

def run (cfg : Cfg) (s : St) : List Op → St × List Out
  | [] => (s, [])
  | op :: r => ((run cfg (step cfg s op).1 r).1, (step cfg s op).2 :: (run cfg (step cfg s op).1 r).2)

end Verif.Comms
