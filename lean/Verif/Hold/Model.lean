/-!
# `ResourceHold`

Source: `/repo/src/upstage_des/events.py` 262-300, 635-711. The resource is SimPy's `Resource` (or `PriorityResource`: where a
request is inserted into the queue is an argument), used through holds only. A hold makes at most one request, so requests have
the numbers of their holds. SimPy (assumed, not in /repo): `request` appends to the queue and then looks at the head of the
queue, `_do_put` grants it if there is a free slot; `release` removes the user at once and is triggered at once; when the
release event is processed the head of the queue is looked at again; `cancel` takes a request that is not triggered out of the
queue and does nothing to others.
-/

namespace Verif.Hold

/-- Function update. -/
def upd {β : Type} (f : Nat → β) (k : Nat) (v : β) : Nat → β := fun x => if x = k then v else f x

/-- `_stage` (events.py 674). -/
inductive Stage where
  | request
  | release
  | completed
deriving DecidableEq, Repr

/-- The request event of a hold: `_request` is None, not triggered, triggered, processed. -/
inductive Req where
  | none
  | waiting
  | granted
  | processed
deriving DecidableEq, Repr

/-- The resource and all holds. `rel`: release events that are triggered but not processed. -/
structure St where
  cap : Nat
  users : List Nat
  queue : List Nat
  stage : Nat → Stage
  req : Nat → Req
  rel : List Nat

/-- `Resource._trigger_put` with `_do_put` (SimPy): the head of the queue is granted if there is room; `_do_put` returns
nothing, so the loop ends after one request. -/
def trigger (s : St) : St :=
  match s.queue with
  | [] => s
  | h :: r =>
    if s.users.length < s.cap then { s with users := s.users ++ [h], queue := r, req := upd s.req h .granted } else s

/-- What a call or kernel step returns. -/
inductive Out where
  | requested
  | released
  | done
  | raised
deriving DecidableEq, Repr

inductive Op where
  /-- `hold.as_event()`, which a task does when it yields the hold; `pos`: where the queue puts the request. -/
  | yield (h pos : Nat)
  /-- `hold.cancel()`, which a task does when it is interrupted. -/
  | cancel (h : Nat)
  /-- `hold.rehearse()`. -/
  | rehearse (h : Nat)
  /-- The kernel processes the granted request: the task goes on with the resource. -/
  | granted (h : Nat)
  /-- The kernel processes the release event. -/
  | gaveBack (h : Nat)
deriving DecidableEq, Repr

/-- `as_event` (events.py 689-711). -/
def asEvent (s : St) (h pos : Nat) : St × Out :=
  match s.stage h with
  | .request =>
    (trigger { s with queue := s.queue.take pos ++ h :: s.queue.drop pos, req := upd s.req h .waiting,
                      stage := upd s.stage h .release }, .requested)
  | .release =>
    if s.req h = .processed then
      ({ s with users := s.users.filter (· ≠ h), rel := s.rel ++ [h], stage := upd s.stage h .completed }, .released)
    else (s, .raised)
  | .completed => (s, .raised)

/-- `BaseRequestEvent.cancel` (events.py 278-284): nothing without a request event or if it is complete; SimPy's `cancel`
takes an untriggered request out of the queue. Releases are always triggered. -/
def cancel (s : St) (h : Nat) : St :=
  if s.req h = .waiting then { s with queue := s.queue.filter (· ≠ h) } else s

/-- `calculate_time_to_complete` (events.py 677-687), which rehearsing calls. -/
def rehearse (s : St) (h : Nat) : St × Out :=
  match s.stage h with
  | .request => ({ s with stage := upd s.stage h .release }, .done)
  | .release => (s, .done)
  | .completed => (s, .raised)

/-- A kernel step for an event that is not due is not a step: `raised`. -/
def step (s : St) : Op → St × Out
  | .yield h pos => asEvent s h pos
  | .cancel h => (cancel s h, .done)
  | .rehearse h => rehearse s h
  | .granted h => if s.req h = .granted then ({ s with req := upd s.req h .processed }, .done) else (s, .raised)
  | .gaveBack h => if h ∈ s.rel then (trigger { s with rel := s.rel.erase h }, .done) else (s, .raised)

def init (cap : Nat) : St := ⟨cap, [], [], fun _ => .request, fun _ => .none, []⟩

/-- All operations, with what each returned. -/
def run (s : St) : List Op → St × List (Op × Out)
  | [] => (s, [])
  | op :: r =>
    let q := step s op
    let t := run q.1 r
    (t.1, (op, q.2) :: t.2)

end Verif.Hold
