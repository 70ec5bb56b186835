import Verif.Store.Model

/-!
# `WindowedGet`

Source: `/repo/src/upstage_des/routines.py` 47-66, 89-178, run by a task (`task.py` 474-555), on the stores of
`Verif/Store/Model.lean`. Any number of other tasks use the store at the same time.

SimPy (assumed): the routine waits for an `AnyOf` condition of its get request and, from the second request on, of a timeout.
When one of these is processed the condition is triggered, that is, put at the end of the events of this instant (`cond`: the
number of store events before it); when the condition is processed the routine goes on. A condition over a timeout that has
been processed already is triggered at once. `Event.fail` raises if the event is triggered. The timeout is processed at its
time; where in that instant is left open.
-/

namespace Verif.Windowed

open Verif.Store (Cfg St Ev doGet doPut doInterrupt doProcess doAdvance)

variable {ι γ ν : Type}

/-- The arguments of the routine (routines.py 100-134): what is asked of the store, the timeout in stage units, and whether
each item restarts the window. -/
structure Par (γ : Type) where
  g : γ
  timeout : Rat
  reset : Bool

/-- Where the routine is. `crashed`: an exception ended the simulation. -/
inductive Phase where
  | idle
  | waiting
  | returning
  | finished
  | cancelled
  | crashed
deriving DecidableEq, Repr

/-- The store and the routine. `need`: `need_wait`; `deadline`: when `wait` fires, if it was made; `fired`: its event was
processed; `cur`: the request of `incoming`; `putId`: the request of the put that `cancel` waits for. Observations, never read by
the code: `taken` (items with the time they were appended to the result), `mine` (all get requests made), `back` (all puts made
by `cancel`), `returned` and `endAt`. -/
structure W (ι γ ν : Type) where
  st : St ι γ ν
  phase : Phase
  need : Bool
  deadline : Option Rat
  fired : Bool
  cond : Option Nat
  cur : Nat
  result : List ι
  putId : Nat
  taken : List (Rat × ι)
  mine : List Nat
  back : List (Nat × ι)
  returned : Option (List ι)
  endAt : Option Rat

def init (st : St ι γ ν) : W ι γ ν :=
  ⟨st, .idle, false, none, false, none, 0, [], 0, [], [], [], none, none⟩

section
variable [DecidableEq ν]

/-- The requests and the condition of one round (routines.py 142-150), with the new `wait` already made. -/
def request (c : Cfg ι γ ν) (p : Par γ) (w : W ι γ ν) : W ι γ ν :=
  let st := doGet c w.st p.g
  { w with st := st, phase := .waiting, cur := w.st.nextId, mine := w.mine ++ [w.st.nextId],
           cond := if w.need && w.fired then some st.evq.length else none }

/-- One round of `run` up to its `yield` (routines.py 141-150): a `Wait` is made if there is none or the window is reset; it
raises for a negative timeout (events.py 207-208). -/
def round (c : Cfg ι γ ν) (p : Par γ) (w : W ι γ ν) : W ι γ ν :=
  if w.need && (w.deadline.isNone || p.reset) then
    if p.timeout < 0 then { w with phase := .crashed }
    else request c p { w with deadline := some (w.st.now + p.timeout), fired := false }
  else request c p w

/-- The value of request `i`, if it was processed. -/
def valueOf (st : St ι γ ν) (i : Nat) : Option ι := (st.delivered.find? fun d => d.1 == i).map (·.2)

/-- After the `yield` (routines.py 152-159): either the request is cancelled and the result returned, or the item is appended
and another round begins. -/
def resume (c : Cfg ι γ ν) (p : Par γ) (w : W ι γ ν) : W ι γ ν :=
  match valueOf w.st w.cur with
  | none =>
    { w with st := doInterrupt w.st w.cur, phase := .finished, cond := none, returned := some w.result, endAt := some w.st.now }
  | some x =>
    round c p { w with need := true, result := w.result ++ [x], taken := w.taken ++ [(w.st.now, x)] }

/-- The next put of `cancel` (routines.py 161-164, 61-66). -/
def giveBack (c : Cfg ι γ ν) (w : W ι γ ν) : W ι γ ν :=
  match w.result with
  | [] => { w with phase := .cancelled }
  | x :: r =>
    { w with st := doPut c w.st x, phase := .returning, result := r, putId := w.st.nextId, back := w.back ++ [(w.st.nextId, x)] }

/-- A user call or a kernel step. -/
inductive Op (ι γ : Type) where
  | start
  /-- Other tasks. -/
  | put (x : ι)
  | get (g : γ)
  | interrupt (id : Nat)
  /-- The kernel processes the next store event, the timeout, the condition. -/
  | process
  | timer
  | resume
  | advance (t : Rat)
  /-- The task of the routine is interrupted and ends or restarts. -/
  | cancel

/-- Kernel: the next store event (not if the condition is before it). -/
def process (c : Cfg ι γ ν) (w : W ι γ ν) : W ι γ ν :=
  if w.cond = some 0 then w
  else
    match w.st.evq with
    | [] => w
    | e :: _ =>
      let st := doProcess c w.st
      let w1 := { w with st := st, cond := w.cond.map (· - 1) }
      match e with
      | .got i _ => if w.phase = .waiting ∧ i = w.cur ∧ w.cond = none then { w1 with cond := some st.evq.length } else w1
      | .put i => if w.phase = .returning ∧ i = w.putId then giveBack c w1 else w1

/-- Kernel: the timeout of the routine, at its time. -/
def timer (w : W ι γ ν) : W ι γ ν :=
  if w.phase = .waiting ∧ w.deadline = some w.st.now ∧ w.fired = false then
    { w with fired := true, cond := if w.cond = none then some w.st.evq.length else w.cond }
  else w

/-- Kernel: time goes on when nothing is left of this instant; not past the timeout. -/
def advance (w : W ι γ ν) (t : Rat) : W ι γ ν :=
  if w.cond = none ∧ (w.phase = .waiting → w.fired = false → ∀ d ∈ w.deadline, t ≤ d) then { w with st := doAdvance w.st t } else w

/-- The interruption of the task (task.py 527-543): `MultiEvent.cancel` fails the condition, which raises if that is triggered
(events.py 423-434), and cancels the request; then the routine's `cancel` runs. A second interruption during that is not
caught. -/
def cancel (c : Cfg ι γ ν) (w : W ι γ ν) : W ι γ ν :=
  match w.phase with
  | .waiting =>
    if w.cond = none then giveBack c { w with st := doInterrupt w.st w.cur } else { w with phase := .crashed }
  | .returning => { w with phase := .crashed }
  | _ => w

/-- One operation. Nothing happens after a crash; others cannot interrupt the requests of the routine. -/
def step (c : Cfg ι γ ν) (p : Par γ) (w : W ι γ ν) (op : Op ι γ) : W ι γ ν :=
  if w.phase = .crashed then w
  else
    match op with
    | .start => if w.phase = .idle then round c p w else w
    | .put x => { w with st := doPut c w.st x }
    | .get g => { w with st := doGet c w.st g }
    | .interrupt id => if id ∈ w.mine ∨ id ∈ w.back.map (·.1) then w else { w with st := doInterrupt w.st id }
    | .process => process c w
    | .timer => timer w
    | .resume => if w.phase = .waiting ∧ w.cond = some 0 then resume c p w else w
    | .advance t => advance w t
    | .cancel => cancel c w

def run (c : Cfg ι γ ν) (p : Par γ) (w : W ι γ ν) (ops : List (Op ι γ)) : W ι γ ν := ops.foldl (step c p) w

end

end Verif.Windowed
