import Verif.Util.Dict
import Mathlib.Data.List.Nodup

/-!
# The task network nucleus (`nucleus.py`)

One actor with its task networks and one nucleus. Names of states and networks are numbers. Sets are lists without
duplicates; the order in which Python goes through a set is a parameter of the operation. Processes are numbers; whether a
process has ended is part of the state. An interrupt that is sent is recorded in `sent` (its delivery is the subject of
`Verif.TaskRun`).
-/

namespace Verif.Nucleus

/-- An interrupt: the network whose process is interrupted, the process, and the cause (name and value). -/
structure Sent where
  net : Nat
  proc : Nat
  state : Nat
  value : Int
deriving DecidableEq, Repr

/-- `nets`: `_task_networks` of the actor; `cur`: `_current_task_proc` of each network; `ended`: processes that are over;
`smap`, `nmap`: the two maps of the nucleus (`nucleus.py:53-54`). -/
structure St where
  nets : List Nat
  cur : Nat → Option Nat
  ended : Nat → Bool
  smap : Dict Nat (List Nat)
  nmap : Dict Nat (List Nat)
  sent : List Sent

/-- An actor without networks and a new nucleus. -/
def init : St := ⟨[], fun _ => none, fun _ => false, [], [], []⟩

inductive Out where
  | ok
  | raised
deriving DecidableEq, Repr

def upd {α : Type} (f : Nat → α) (i : Nat) (x : α) : Nat → α := fun j => if j = i then x else f j

/-- `set.add`. -/
def add (l : List Nat) (x : Nat) : List Nat := if x ∈ l then l else l ++ [x]

/-- A `defaultdict(set)` read with `[]`: the entry is made when missing. -/
def entry (d : Dict Nat (List Nat)) (k : Nat) : Dict Nat (List Nat) × List Nat :=
  match d.get? k with
  | some l => (d, l)
  | none => (d.set k [], [])

/-- The loop of `add_network` (`nucleus.py:72-74`). -/
def register (s : St) (n : Nat) : List Nat → St
  | [] => s
  | x :: r => register { s with smap := s.smap.set x (add (entry s.smap x).2 n),
                                nmap := s.nmap.set n (add (entry s.nmap n).2 x) } n r

/-- `add_network` (57-76). -/
def addNetwork (s : St) (n : Nat) (states : List Nat) : St × Out :=
  if n ∈ s.nets then (register s n states, .ok) else (s, .raised)

/-- The loop of `remove_network` (91-92): `set.remove` raises when the member is missing. -/
def unregister (s : St) (n : Nat) : List Nat → St × Out
  | [] => (s, .ok)
  | x :: r =>
    let e := entry s.smap x
    if n ∈ e.2 then unregister { s with smap := e.1.set x (e.2.erase n) } n r
    else ({ s with smap := e.1 }, .raised)

/-- `remove_network` (78-93). `ord` is the order of the set of states. -/
def removeNetwork (s : St) (n : Nat) (ord : List Nat) : St × Out :=
  if n ∈ s.nets then
    let e := entry s.nmap n
    let s1 := { s with nmap := e.1 }
    if ord.isPerm e.2 then
      match unregister s1 n ord with
      | (s2, .ok) => ({ s2 with nmap := s2.nmap.del n }, .ok)
      | (s2, .raised) => (s2, .raised)
    else (s, .raised)
  else (s, .raised)

/-- The loop of `send_change` (102-110); `self` is the process that runs, if any: SimPy refuses to interrupt it and to
interrupt an ended one. -/
def send (s : St) (self : Option Nat) (x : Nat) (v : Int) : List Nat → St × Out
  | [] => (s, .ok)
  | n :: r =>
    if n ∈ s.nets then
      match s.cur n with
      | none => send s self x v r
      | some p =>
        if s.ended p = true ∨ self = some p then (s, .raised)
        else send { s with sent := s.sent ++ [⟨n, p, x, v⟩] } self x v r
    else (s, .raised)

/-- `send_change` (95-110). `ord` is the order of the set of networks. -/
def sendChange (s : St) (self : Option Nat) (x : Nat) (v : Int) (ord : List Nat) : St × Out :=
  match s.smap.get? x with
  | none => (s, .ok)
  | some l => if ord.isPerm l then send s self x v ord else (s, .raised)

inductive Op where
  /-- `actor.add_task_network` (`actor.py:715-725`). -/
  | addNet (n : Nat)
  /-- `actor.delete_task_network` (`actor.py:911-923`). -/
  | delNet (n : Nat)
  /-- `nucleus.add_network`. -/
  | watch (n : Nat) (states : List Nat)
  /-- `nucleus.remove_network`. -/
  | unwatch (n : Nat) (ord : List Nat)
  /-- The loop of a network starts its next task as a process (`task_network.py:133`). -/
  | start (n p : Nat)
  /-- A process ends. -/
  | finish (p : Nat)
  /-- A state of the actor is set (`states.py:216-231`) by the process `self`. -/
  | change (self : Option Nat) (x : Nat) (v : Int) (ord : List Nat)
deriving DecidableEq

def step (s : St) : Op → St × Out
  | .addNet n => if n ∈ s.nets then (s, .raised) else ({ s with nets := s.nets ++ [n] }, .ok)
  | .delNet n => if n ∈ s.nets then ({ s with nets := s.nets.erase n }, .ok) else (s, .raised)
  | .watch n states => addNetwork s n states
  | .unwatch n ord => removeNetwork s n ord
  | .start n p => ({ s with cur := upd s.cur n (some p), ended := upd s.ended p false }, .ok)
  | .finish p => ({ s with ended := upd s.ended p true }, .ok)
  | .change self x v ord => sendChange s self x v ord

def run (s : St) : List Op → St
  | [] => s
  | op :: r => run (step s op).1 r

end Verif.Nucleus
