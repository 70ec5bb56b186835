import Mathlib.Algebra.Order.Ring.Rat

/-!
# Model of the processes that pass messages to callbacks

Sources: `/repo/src/upstage_des/communications/processes.py` 16-44 (`generate_comms_wait`),
`/repo/src/upstage_des/communications/comms.py` 24-54 (`MessageContent`, `Message`), 143-156 (`clean_message`), 203-245 (`make_put`).

One store with any number of such processes (listeners), processes that take messages themselves, and senders. The store is SimPy's
`Store`: a request enters its queue and the head of that queue is tried once; when a put (a get) has been processed, the head of the other
queue is tried once; requests that are not yet granted can be withdrawn. Granted requests are processed in the order in which they were
granted. Callbacks are the environment: while one runs, anything but the kernel can happen; it returns or raises.
-/

namespace Verif.Listen

/-- What is sent or passed on: a `Message` (only its content), a `MessageContent`, a dictionary of the user's, `{}`, `{"message": x}`,
anything else (a text). -/
inductive Obj where
  | message (content : Obj)
  | content (data : Obj) (text : Option Nat)
  | dict (d : Nat)
  | empty
  | wrap (o : Obj)
  | other (n : Nat)
deriving DecidableEq, Repr

/-- `clean_message` (comms.py 143-156). -/
def clean : Obj → Obj
  | .message c => c
  | o => .content (.wrap o) none

/-- The object that `make_put` (comms.py 226-239) sends; sender, destination and mode are in `Comms`. -/
def makePut : Obj → Obj
  | .message c => .message c
  | .content d t => .message (.content d t)
  | .dict d => .message (.content (.dict d) none)
  | .empty => .message (.content .empty none)
  | .wrap o => .message (.content (.wrap o) none)
  | .other n => .message (.content .empty (some n))

/-- An object in the store: the put that brought it, and when. -/
structure Item where
  put : Nat
  obj : Obj
  time : Rat
deriving DecidableEq, Repr

/-- A granted request that is not yet processed. -/
inductive Ev where
  | put (p : Nat)
  | got (g : Nat) (x : Item)
deriving DecidableEq, Repr

/-- A listener: made but not begun; waiting for its request `g`; in its callback; over. -/
inductive Lst where
  | made
  | waiting (g : Nat)
  | calling
  | dead
deriving DecidableEq, Repr

structure St where
  now : Rat
  items : List Item
  putQ : List (Nat × Obj)
  getQ : List Nat
  evs : List Ev
  nPut : Nat
  nGet : Nat
  /-- Whose a request is: a listener's, or (`none`) another process's. -/
  owner : Nat → Option Nat
  nLst : Nat
  lst : Nat → Lst
  /-- The listener whose callback is running. -/
  busy : Option Nat

/-- What happens. -/
inductive Eff where
  /-- Put `p` of `o` is granted at `t`. -/
  | accepted (p : Nat) (o : Obj) (t : Rat)
  /-- Listener `i` calls its callback with `o`, which came with put `p`, at `t`. -/
  | called (i p : Nat) (o : Obj) (t : Rat)
  /-- Request `g` of another process is processed: it has what came with put `p`. -/
  | taken (g p : Nat)
  /-- What came with put `p` goes to a request whose process is gone. -/
  | lost (p : Nat)
  /-- Listener `i` begins, is over. -/
  | begun (i : Nat)
  | ended (i : Nat)
  | impossible
deriving DecidableEq, Repr

inductive Op where
  | put (o : Obj)
  | get
  | cancelPut (p : Nat)
  | cancelGet (g : Nat)
  /-- The function that `generate_comms_wait` returned is called: a new process. -/
  | listen
  /-- The process begins. -/
  | begin (i : Nat)
  /-- The kernel processes the next granted request. -/
  | process
  /-- The running callback returns. -/
  | ret
  /-- The running callback raises; somebody handles the failure of the process. -/
  | raise
  /-- An interrupt reaches a waiting listener, which ends of it; somebody handles the failure of the process. -/
  | stop (i : Nat)
  | advance (d : Rat)
deriving DecidableEq

def upd {α : Type} (f : Nat → α) (i : Nat) (x : α) : Nat → α := fun j => if j = i then x else f j

/-- Whether one more fits in. -/
def room (cap : Option Nat) (n : Nat) : Bool :=
  match cap with
  | none => true
  | some c => decide (n < c)

/-- SimPy: the head of the put queue is tried. -/
def tryPut (cap : Option Nat) (s : St) : St × List Eff :=
  match s.putQ with
  | [] => (s, [])
  | (p, o) :: r =>
    if room cap s.items.length then
      ({ s with putQ := r, items := s.items ++ [⟨p, o, s.now⟩], evs := s.evs ++ [.put p] }, [.accepted p o s.now])
    else (s, [])

/-- SimPy: the head of the get queue is tried. -/
def tryGet (s : St) : St :=
  match s.getQ, s.items with
  | g :: r, x :: xs => { s with getQ := r, items := xs, evs := s.evs ++ [.got g x] }
  | _, _ => s

/-- `store.get()` by `who`. -/
def request (s : St) (who : Option Nat) : St :=
  tryGet { s with getQ := s.getQ ++ [s.nGet], nGet := s.nGet + 1, owner := upd s.owner s.nGet who }

/-- The loop of `comms_wait_proc` (processes.py 38-42) asks for the next message. -/
def ask (s : St) (i : Nat) : St := request { s with lst := upd s.lst i (.waiting s.nGet) } (some i)

/-- A granted get is processed: SimPy tries the head of the put queue, then resumes the process: a listener (processes.py 40-42) calls
its callback with the cleaned message. -/
def deliver (cap : Option Nat) (s : St) (g : Nat) (x : Item) : St × List Eff :=
  let r := tryPut cap s
  match r.1.owner g with
  | none => (r.1, r.2 ++ [.taken g x.put])
  | some i =>
    if r.1.lst i = .waiting g then
      ({ r.1 with lst := upd r.1.lst i .calling, busy := some i }, r.2 ++ [.called i x.put (clean x.obj) r.1.now])
    else (r.1, r.2 ++ [.lost x.put])

def step (cap : Option Nat) (s : St) : Op → St × List Eff
  | .put o => tryPut cap { s with putQ := s.putQ ++ [(s.nPut, o)], nPut := s.nPut + 1 }
  | .get => (request s none, [])
  | .cancelPut p => ({ s with putQ := s.putQ.filter (fun x => decide (x.1 ≠ p)) }, [])
  | .cancelGet g =>
    if g < s.nGet ∧ s.owner g = none then ({ s with getQ := s.getQ.filter (fun x => decide (x ≠ g)) }, []) else (s, [.impossible])
  | .listen => ({ s with nLst := s.nLst + 1, lst := upd s.lst s.nLst .made }, [])
  | .begin i => if i < s.nLst ∧ s.lst i = .made ∧ s.busy = none then (ask s i, [.begun i]) else (s, [.impossible])
  | .process =>
    if s.busy ≠ none then (s, [.impossible]) else
    match s.evs with
    | [] => (s, [.impossible])
    | .put _ :: r => (tryGet { s with evs := r }, [])
    | .got g x :: r => deliver cap { s with evs := r } g x
  | .ret =>
    match s.busy with
    | none => (s, [.impossible])
    | some i => (ask { s with busy := none } i, [])
  | .raise =>
    match s.busy with
    | none => (s, [.impossible])
    | some i => ({ s with busy := none, lst := upd s.lst i .dead }, [.ended i])
  | .stop i =>
    if s.busy ≠ none then (s, [.impossible]) else
    match s.lst i with
    | .waiting _ => ({ s with lst := upd s.lst i .dead }, [.ended i])
    | _ => (s, [.impossible])
  | .advance d =>
    if 0 ≤ d ∧ s.evs = [] ∧ s.busy = none ∧ ∀ i < s.nLst, s.lst i ≠ .made then ({ s with now := s.now + d }, []) else (s, [.impossible])

/-- Operations and what happened, the latest first. -/
abbrev Trace := List (Op × List Eff)

def run (cap : Option Nat) (s : St) (tr : Trace) : List Op → St × Trace
  | [] => (s, tr)
  | op :: ops => run cap (step cap s op).1 ((op, (step cap s op).2) :: tr) ops

def init (t : Rat) : St := ⟨t, [], [], [], [], 0, 0, fun _ => none, 0, fun _ => .made, none⟩

end Verif.Listen
