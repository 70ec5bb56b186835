import Verif.Util.Recorded
import Verif.Util.Dict

/-!
# Model of mimic states

Source: `actor.py` 452-535 (`activate_mimic_state`, `deactivate_mimic_state`, `deactivate_all_mimic_states`),
537-565 (callbacks), `states.py` 185-209, 245-280 (`_do_record`, `__set__`, `__get__`), 410-424
(`ActiveState.__get__` delegates to `State.__get__` for a mimicking state).

Any number of actors; states, actors and tasks are numbered. States are plain, not frozen, not key/value
states; the only callbacks are the recorders of mimics. A chain of mimics is followed recursively, as the code
does; `depth` is the interpreter's recursion limit (a longer chain, or a cycle, raises). Rehearsal callers are
not modelled (activation then raises). Type checks, recording and their order are as in the source.
-/

namespace Verif.Mimic

variable {V : Type}

/-- Per state descriptor: `recording`, `record_duplicates`, whether a value passes the type check; `==` on values;
the recursion limit. -/
structure Cfg (V : Type) where
  recording : Nat → Bool
  dup : Nat → Bool
  okType : Nat → V → Bool
  same : V → V → Bool
  depth : Nat

/-- Clock; values and histories per actor and state; `_mimic_states` per actor (insertion order);
`_mimic_states_by_task` per actor and task; the recorders registered on a state descriptor, each with the actor
and state it records for and the actor it listens to. -/
structure St (V : Type) where
  now : Rat
  value : Nat → Nat → Option V
  hist : Nat → Nat → List (Rat × V)
  mimic : Nat → Dict Nat (Nat × Nat)
  byTask : Nat → Nat → List Nat
  cbs : Nat → Dict (Nat × Nat) Nat

inductive Out (V : Type) where
  | ok
  | val (v : V)
  | raised
deriving DecidableEq

def upd2 {α : Type} (f : Nat → Nat → α) (i j : Nat) (x : α) : Nat → Nat → α :=
  fun i' j' => if i' = i ∧ j' = j then x else f i' j'

def upd {α : Type} (f : Nat → α) (i : Nat) (x : α) : Nat → α := fun i' => if i' = i then x else f i'

/-- `_do_record` (states.py:185-209). -/
def record (c : Cfg V) (s : St V) (a n : Nat) (x : V) : St V :=
  if c.recording n then
    { s with hist := upd2 s.hist a n (Recorded.append (c.dup n) c.same (s.hist a n) (s.now, x)) }
  else s

/-- `_do_callback` (211-219) with the recorders of actor.py:505-508: each records the new value for its own actor
and state if the changed actor is the one it listens to. -/
def callbacks (c : Cfg V) (s : St V) (a : Nat) (x : V) : Dict (Nat × Nat) Nat → St V
  | [] => s
  | ((b, m), src) :: cbs => callbacks c (if src = a then record c s b m x else s) a x cbs

/-- `State.__set__` (245-267), not frozen, no nucleus. -/
def set (c : Cfg V) (s : St V) (a n : Nat) (x : V) : St V × Out V :=
  if c.okType n x = false then (s, .raised) else
  let s := { s with value := upd2 s.value a n (some x) }
  let s := record c s a n x
  (callbacks c s a x (s.cbs n), .ok)

/-- `State.__get__` (269-280). -/
def get (c : Cfg V) : Nat → St V → Nat → Nat → St V × Out V
  | fuel, s, a, n =>
    match (s.mimic a).get? n with
    | none =>
      match s.value a n with
      | some v => (s, .val v)
      | none => (s, .raised)
    | some (b, m) =>
      match fuel with
      | 0 => (s, .raised)
      | fuel + 1 =>
        match get c fuel s b m with
        | (s, .val v) =>
          match set c s a n v with
          | (s, .ok) => (s, .val v)
          | (s, _) => (s, .raised)
        | (s, _) => (s, .raised)

/-- `set.add` on a duplicate-free list. -/
def addTo (l : List Nat) (x : Nat) : List Nat := if x ∈ l then l else l ++ [x]

/-- `activate_mimic_state` (actor.py:465-510). -/
def activate (c : Cfg V) (s : St V) (a n b m t : Nat) : St V × Out V :=
  if (s.mimic a).has n then (s, .raised) else
  match get c c.depth s b m with
  | (s, .val v) =>
    if c.okType n v = false then (s, .raised) else
    let s := { s with mimic := upd s.mimic a ((s.mimic a).set n (b, m)) }
    let s := { s with byTask := upd2 s.byTask a t (addTo (s.byTask a t) n) }
    if c.recording n then ({ s with cbs := upd s.cbs m ((s.cbs m).set (a, n) b) }, .ok) else (s, .ok)
  | (s, _) => (s, .raised)

/-- `deactivate_mimic_state` (512-526): read, look up the source (`KeyError`), remove the recorder (`KeyError`), drop
the mimic, and only then remove the state from the task's set (`KeyError`). -/
def deactivate (c : Cfg V) (s : St V) (a n t : Nat) : St V × Out V :=
  match get c c.depth s a n with
  | (s, .val _) =>
    match (s.mimic a).get? n with
    | none => (s, .raised)
    | some (_, m) =>
      if c.recording n && !(s.cbs m).has (a, n) then (s, .raised) else
      let s := if c.recording n then { s with cbs := upd s.cbs m ((s.cbs m).del (a, n)) } else s
      let s := { s with mimic := upd s.mimic a ((s.mimic a).del n) }
      if n ∈ s.byTask a t then
        ({ s with byTask := upd2 s.byTask a t ((s.byTask a t).filter (· ≠ n)) }, .ok)
      else (s, .raised)
  | (s, _) => (s, .raised)

/-- The loop of `deactivate_all_mimic_states`. -/
def deactivateList (c : Cfg V) (s : St V) (a t : Nat) : List Nat → St V × Out V
  | [] => (s, .ok)
  | n :: ns =>
    match deactivate c s a n t with
    | (s, .ok) => deactivateList c s a t ns
    | (s, _) => (s, .raised)

/-- `deactivate_all_mimic_states` (528-535): over *all* mimics of the actor, in insertion order. -/
def deactivateAll (c : Cfg V) (s : St V) (a t : Nat) : St V × Out V :=
  deactivateList c s a t (s.mimic a).keys

inductive Op (V : Type) where
  | set (a n : Nat) (x : V)
  | read (a n : Nat)
  | activate (a n b m t : Nat)
  | deactivate (a n t : Nat)
  | deactivateAll (a t : Nat)
  | advance (dt : Rat)
deriving DecidableEq

def step (c : Cfg V) (s : St V) : Op V → St V × Out V
  | .set a n x => set c s a n x
  | .read a n => get c c.depth s a n
  | .activate a n b m t => activate c s a n b m t
  | .deactivate a n t => deactivate c s a n t
  | .deactivateAll a t => deactivateAll c s a t
  | .advance dt => if 0 ≤ dt then ({ s with now := s.now + dt }, .ok) else (s, .raised)

def run (c : Cfg V) (s : St V) : List (Op V) → St V
  | [] => s
  | op :: ops => run c (step c s op).1 ops

def init (t0 : Rat) : St V where
  now := t0
  value := fun _ _ => none
  hist := fun _ _ => []
  mimic := fun _ => []
  byTask := fun _ _ => []
  cbs := fun _ => []

end Verif.Mimic
