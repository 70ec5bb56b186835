import Verif.Util.Dict
import Mathlib.Algebra.Order.Ring.Rat
import Mathlib.Tactic.Linarith

/-!
# Model of `resources/reserve.py` (`ReserveContainer`, lines 17-129)

Simplifications: amounts and times are exact rationals; `capacity=float("inf")` is `none`.
The only SimPy part used is `env.timeout` inside the `_expire_request` process; the kernel is
represented by two extra operations, `tick` (let the clock advance, never past a pending timer) and
`fire` (process the earliest pending timer; ties in creation order), so that a list of operations is an
arbitrary schedule of user calls and kernel steps.
-/

namespace Verif.Reserve

/-- A requester: any Python object.  `obj` is its identity (`is`), `key` its equality class (`==`/hash,
what a dict lookup sees). -/
structure Req where
  obj : Nat
  key : Nat
deriving DecidableEq, Repr

/-- Value stored in `self._queued[requester]` (reserve.py:45, 94): `(quantity, env.now)`.
`obj` is the identity of the stored dict key. -/
structure Slot where
  obj : Nat
  qty : Rat
  at_ : Rat
deriving DecidableEq, Repr

/-- A running `_expire_request` process (reserve.py:74-86): it waits for `due` and then cancels `req`.
`bad` says the delay was negative, in which case `env.timeout` raises. -/
structure Timer where
  due : Rat
  req : Req
  bad : Bool
deriving DecidableEq, Repr

/-- The container's attributes (reserve.py:41-45) plus the kernel's clock and pending timers. -/
structure St where
  capacity : Option Rat
  level : Rat
  real : Rat
  queued : Dict Nat Slot
  now : Rat
  timers : List Timer
deriving DecidableEq, Repr

/-- `__init__` (reserve.py:23-45). -/
def init (capacity : Option Rat) (level now : Rat) : St :=
  { capacity, level, real := level, queued := [], now, timers := [] }

/-- Return values. `expired k b`: the timer of a requester with key `k` fired and its `cancel_request`
returned `b`; `raised`: a `ValueError`; `disabled`: the schedule asks for a kernel step that is not
possible now. -/
inductive Out where
  | bool (b : Bool)
  | amt (q : Rat)
  | unit
  | raised
  | expired (k : Nat) (b : Bool)
  | expireRaised (k : Nat)
  | disabled
deriving DecidableEq, Repr

/-- `remaining` / `available` (reserve.py:47-63). -/
def available (s : St) : Rat := s.level

/-- `reserve` (reserve.py:88-99), branch by branch. -/
def reserve (s : St) (r : Req) (q : Rat) (exp : Option Rat) : St × Out :=
  if available s < q then (s, .bool false)
  else if s.queued.has r.key = false then
    let s1 := { s with
      level := s.level - q
      queued := s.queued.set r.key { obj := r.obj, qty := q, at_ := s.now } }
    match exp with
    | none => (s1, .bool true)
    | some e =>
      ({ s1 with timers := s1.timers ++ [⟨s.now + max 0 e, r, decide (e < 0)⟩] },
        .bool true)
  else (s, .bool false)

/-- `cancel_request` (reserve.py:101-111): membership is by equality, the second test by identity. -/
def cancel (s : St) (r : Req) : St × Out :=
  match s.queued.get? r.key with
  | none => (s, .bool false)
  | some sl =>
    if sl.obj ≠ r.obj then (s, .raised)
    else ({ s with level := s.level + sl.qty, queued := s.queued.del r.key }, .bool true)

/-- `take` (reserve.py:113-120). -/
def take (s : St) (r : Req) : St × Out :=
  match s.queued.get? r.key with
  | none => (s, .raised)
  | some sl => ({ s with queued := s.queued.del r.key, real := s.real - sl.qty }, .amt sl.qty)

/-- `new > self.capacity` with `capacity = inf` as `none`. -/
def over (x : Rat) : Option Rat → Bool
  | none => false
  | some c => decide (c < x)

/-- `put` (reserve.py:122-129). -/
def put (s : St) (a : Rat) (inc : Bool) : St × Out :=
  let new := s.level + a
  if over new s.capacity && !inc then (s, .raised)
  else ({ s with level := new, real := s.real + a }, .unit)

/-- SimPy kernel: the pending timer with the least due time, the earliest created on ties, and the
remaining ones. -/
def nextTimer : List Timer → Option (Timer × List Timer)
  | [] => none
  | t :: ts =>
    match nextTimer ts with
    | none => some (t, [])
    | some (u, us) => if u.due < t.due then some (u, t :: us) else some (t, ts)

/-- Kernel step: resume the earliest `_expire_request` process after its timeout (reserve.py:85-86);
the clock becomes its due time. -/
def fire (s : St) : St × Out :=
  match nextTimer s.timers with
  | none => (s, .disabled)
  | some (t, ts) =>
    let s1 := { s with now := t.due, timers := ts }
    if t.bad then (s1, .expireRaised t.req.key)
    else
      match cancel s1 t.req with
      | (s2, .bool b) => (s2, .expired t.req.key b)
      | (s2, _) => (s2, .expireRaised t.req.key)

/-- Kernel step: the clock moves to `t`, never backwards and never past a pending timer. -/
def tick (s : St) (t : Rat) : St × Out :=
  if s.now ≤ t ∧ ∀ u ∈ s.timers, t ≤ u.due then ({ s with now := t }, .unit) else (s, .disabled)

/-- A user call or a kernel step. -/
inductive Op where
  | reserve (r : Req) (q : Rat) (exp : Option Rat)
  | cancel (r : Req)
  | take (r : Req)
  | put (a : Rat) (inc : Bool)
  | tick (t : Rat)
  | fire
deriving DecidableEq, Repr

/-- One operation. -/
def step (s : St) : Op → St × Out
  | .reserve r q e => reserve s r q e
  | .cancel r => cancel s r
  | .take r => take s r
  | .put a inc => put s a inc
  | .tick t => tick s t
  | .fire => fire s

/-- A history: the final state and the observed (operation, result) trace. -/
def run (s : St) : List Op → St × List (Op × Out)
  | [] => (s, [])
  | op :: ops =>
    let r := step s op
    let rest := run r.1 ops
    (rest.1, (op, r.2) :: rest.2)

end Verif.Reserve
