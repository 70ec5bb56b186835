import Verif.Util.Dict

/-!
# Model of task networks and task queues of an actor

Source: `task_network.py` 24-138 (`TaskLinks`, `TaskNetwork.__init__`, `is_feasible`, `_next_task_name`, `loop`),
199-330 (`TaskNetworkFactory`), `actor.py` 715-814 (network and queue methods), 881-923 (`has_task_network`,
`suggest_network_name`, `delete_task_network`).

One actor. The loop of a network is a process; it is represented by the step that starts it and by one step each time
the task it is waiting for completes (normally or after an interrupt that ends it): `finish`. While a task runs, any
sequence of calls may be made on the actor. A task that is a `DecisionTask` with `DO_NOT_HOLD` runs inside the loop
without a process; for the order of execution that is the same. Logging and task instances are left out. An
error in the loop ends its process (SimPy would stop the simulation). The network object is looked up when the loop
process starts, not when `start_network_loop` is called in the same instant. A network's
loop is started only while it is not running (two loops over one network would share its current task).
-/

namespace Verif.Network

/-- `TaskLinks` (task_network.py:24-29). -/
structure Links where
  default : Option String
  allowed : List String
deriving DecidableEq

/-- The kinds of task classes that matter to a network. -/
inductive Kind where
  | normal
  | decision
  | skip
  | terminal
deriving DecidableEq

/-- `task_classes` and `task_links` of a network (54-55). -/
structure Net where
  classes : Dict String Kind
  links : Dict String Links
deriving DecidableEq

/-- `_task_networks`, `_task_queue`, and for each running loop its network and `_current_task_name`. -/
structure St where
  nets : Dict String Net
  queues : Dict String (List String)
  cur : String → Option (Net × String)

inductive Out where
  | done
  | raised
  | started (t : String)
  /-- `self.task_classes[task_name]` raised for `t`, after the task was taken from the queue. -/
  | noClass (t : String)
  | next (t : Option String)
  | queue (q : List String)
  | name (n : String)
  | impossible
deriving DecidableEq

def upd {α : Type} (f : String → α) (i : String) (x : α) : String → α := fun j => if j = i then x else f j

/-- `add_task_network` (actor.py:715-725). -/
def addNet (s : St) (n : String) (net : Net) : St × Out :=
  if s.nets.has n then (s, .raised) else
  ({ s with nets := s.nets.set n net, queues := s.queues.set n [] }, .done)

/-- `delete_task_network` (911-923): the queue stays. -/
def delNet (s : St) (n : String) : St × Out :=
  if !s.nets.has n then (s, .raised) else ({ s with nets := s.nets.del n }, .done)

/-- `clear_task_queue` (727-736). -/
def clearQ (s : St) (n : String) : St × Out := ({ s with queues := s.queues.set n [] }, .done)

/-- `set_task_queue` (738-751): the list is copied, so queues never share a list object. -/
def setQ (s : St) (n : String) (l : List String) : St × Out :=
  match s.queues.get? n with
  | none => (s, .raised)
  | some q => if q ≠ [] then (s, .raised) else ({ s with queues := s.queues.set n l }, .done)

/-- `get_task_queue` (753-762); the caller may append to the list it gets. -/
def appendQ (s : St) (n : String) (t : String) : St × Out :=
  match s.queues.get? n with
  | none => (s, .raised)
  | some q => ({ s with queues := s.queues.set n (q ++ [t]) }, .done)

/-- `get_next_task` (775-788). -/
def getNext (s : St) (n : String) : Out :=
  match s.queues.get? n with
  | none => .raised
  | some q => .next q.head?

/-- `_begin_next_task` (797-814): refuse a task that is not the head of a non-empty queue; otherwise make sure it is
queued, and pop it. -/
def beginNext (s : St) (n : String) (t : String) : St × Out :=
  match s.queues.get? n with
  | some (u :: r) =>
    if u ≠ t then (s, .raised) else ({ s with queues := s.queues.set n r }, .done)
  | _ =>
    match setQ s n [t] with
    | (s, .done) =>
      match s.queues.get? n with
      | some (_ :: r) => ({ s with queues := s.queues.set n r }, .done)
      | _ => (s, .raised)
    | (s, _) => (s, .raised)

/-- The body of the `while` of `loop` (114-133) up to the start of the task. -/
def begin_ (s : St) (n : String) (net : Net) (t : String) : St × Out :=
  match beginNext s n t with
  | (s, .done) =>
    match net.classes.get? t with
    | some _ => ({ s with cur := upd s.cur n (some (net, t)) }, .started t)
    | none => ({ s with cur := upd s.cur n none }, .noClass t)
  | (s, _) => ({ s with cur := upd s.cur n none }, .raised)

/-- `loop` (94-114) up to its first task. -/
def start (s : St) (n : String) (init : Option String) : St × Out :=
  match s.nets.get? n with
  | none => (s, .raised)
  | some net =>
    match getNext s n with
    | .next (some t) => begin_ s n net t
    | .next none =>
      match init with
      | none => (s, .raised)
      | some t => begin_ s n net t
    | _ => (s, .raised)

/-- `is_feasible` (58-69); `none` is a `KeyError`. -/
def isFeasible (net : Net) (t u : String) : Option Bool := (net.links.get? t).map fun l => decide (u ∈ l.allowed)

/-- `_next_task_name` (71-92) without clearing. -/
def nextName (s : St) (n : String) (net : Net) (t : String) : Option String :=
  match getNext s n with
  | .next q =>
    match net.links.get? t with
    | none => none
    | some l =>
      match q with
      | none => l.default
      | some u => some u
  | _ => none

/-- The task a loop waits for has completed (135-138 and round again). -/
def finish (s : St) (n : String) : St × Out :=
  match s.cur n with
  | none => (s, .impossible)
  | some (net, t) =>
    if net.classes.get? t = some .terminal then (s, .impossible) else
    match nextName s n net t with
    | none => ({ s with cur := upd s.cur n none }, .raised)
    | some u => begin_ s n net u

/-- `suggest_network_name` (891-909); the loop is given by `fuel`. -/
def suggestLoop (s : St) (base : String) : Nat → Nat → Option String
  | 0, _ => none
  | fuel + 1, i =>
    let nm := base ++ "_" ++ Nat.repr (i + 1)
    if s.nets.has nm then suggestLoop s base fuel (i + 1) else some nm

def suggest (s : St) (base : String) (fuel : Nat) : Option String :=
  if !s.nets.has base then some base else suggestLoop s base fuel 0

inductive Op where
  | addNet (n : String) (net : Net)
  | delNet (n : String)
  | setQ (n : String) (l : List String)
  | clearQ (n : String)
  | appendQ (n t : String)
  | getNext (n : String)
  | getQ (n : String)
  | start (n : String) (init : Option String)
  | finish (n : String)

def step (s : St) : Op → St × Out
  | .addNet n net => addNet s n net
  | .delNet n => delNet s n
  | .setQ n l => setQ s n l
  | .clearQ n => clearQ s n
  | .appendQ n t => appendQ s n t
  | .getNext n => (s, getNext s n)
  | .getQ n => (s, match s.queues.get? n with | some q => .queue q | none => .raised)
  | .start n i => if s.cur n = none then start s n i else (s, .impossible)
  | .finish n => finish s n

def run (s : St) : List Op → St × List (Op × Out)
  | [] => (s, [])
  | op :: ops => ((run (step s op).1 ops).1, (op, (step s op).2) :: (run (step s op).1 ops).2)

def init : St := ⟨[], [], fun _ => none⟩

/-! ## Factories -/

/-- `from_single_looping` (226-243). -/
def singleLooping (t : String) (k : Kind) : Net :=
  ⟨[(t, k)], [(t, ⟨some t, [t]⟩)]⟩

/-- `from_single_terminating` (245-263). -/
def singleTerminating (t : String) (k : Kind) : Net :=
  ⟨Dict.set [(t, k)] (t ++ "_FINAL") .terminal, [(t, ⟨some (t ++ "_FINAL"), [t ++ "_FINAL"]⟩)]⟩

/-- The loop of `from_ordered_terminating` (281-292). -/
def orderedTermLoop (name : String) : List (String × Kind) → Net → Net
  | [], net => net
  | [(t, k)], net =>
    ⟨(net.classes.set t k).set (name ++ "_TERMINATING") .terminal,
      net.links.set t ⟨some (name ++ "_TERMINATING"), [name ++ "_TERMINATING"]⟩⟩
  | (t, k) :: (u, k') :: r, net =>
    orderedTermLoop name ((u, k') :: r) ⟨net.classes.set t k, net.links.set t ⟨some u, [u]⟩⟩

def orderedTerminating (name : String) (l : List (String × Kind)) : Net := orderedTermLoop name l ⟨[], []⟩

/-- The loop of `from_ordered_loop` (306-315). -/
def orderedLoopLoop (first : String) : List (String × Kind) → Net → Net
  | [], net => net
  | [(t, k)], net => ⟨net.classes.set t k, net.links.set t ⟨some first, [first]⟩⟩
  | (t, k) :: (u, k') :: r, net =>
    orderedLoopLoop first ((u, k') :: r) ⟨net.classes.set t k, net.links.set t ⟨some u, [u]⟩⟩

def orderedLoop (l : List (String × Kind)) : Net :=
  match l with
  | [] => ⟨[], []⟩
  | (t, k) :: r => orderedLoopLoop t ((t, k) :: r) ⟨[], []⟩

end Verif.Network
