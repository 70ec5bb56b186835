import Mathlib.Algebra.Order.Ring.Rat

/-!
# Recorded data

Source: `/repo/src/upstage_des/data_utils/data_recorder.py` 12-62 (`DataRecorder.record_data`, `record_data`, `get_recorded_data`),
`base.py` 312-323 (`get_recorded`), 213 (`data_recorded`).

The program works on mutable objects (dictionaries, lists, dataclass instances), which refer to each other in any way, also in cycles.
Simplified: an object is a function from keys to values; numbers and strings are atoms. `deepcopy` is Python's: it makes a new object for
every object that can be reached, with the same contents, sharing and cycles; it may raise for objects it can not copy, which is the
environment's choice here. Everything happens in one context (`Ctx` has several).
-/

namespace Verif.Snap

/-- A Python value: an atom or a reference to an object. -/
inductive Val where
  | atom (a : Nat)
  | ref (i : Nat)
deriving DecidableEq, Repr

/-- The objects below `next`, by key; the variables of the program; the clock; `data_recorded` (base.py 213). -/
structure St where
  next : Nat
  heap : Nat → Nat → Option Val
  vars : Nat → Val
  now : Rat
  recorded : List (Rat × Val)

/-- Nothing there yet. -/
def init (now : Rat) : St := ⟨0, fun _ _ => none, fun _ => .atom 0, now, []⟩

def upd {α : Type} (f : Nat → α) (k : Nat) (v : α) : Nat → α := fun i => if i = k then v else f i

/-- A reference to the copy. -/
def shift (n : Nat) : Val → Val
  | .atom a => .atom a
  | .ref i => .ref (n + i)

/-- `deepcopy` of everything: object `i` has its copy at `next + i`, where the references are to copies. What the copied value does not
reach has a copy too, which nobody can see. -/
def deepcopy (s : St) : St :=
  { s with next := s.next + s.next, heap := fun i k => if i < s.next then s.heap i k else if i < s.next + s.next then (s.heap (i - s.next) k).map (shift s.next) else s.heap i k }

/-- What the program does. -/
inductive Op where
  /-- `x = a` for an atom. -/
  | atom (x a : Nat)
  /-- `x = {}`. -/
  | new (x : Nat)
  /-- `x = y`. -/
  | move (x y : Nat)
  /-- `x[k] = y`. -/
  | write (x k y : Nat)
  /-- `del x[k]`. -/
  | del (x k : Nat)
  /-- `x = y[k]`. -/
  | read (x y k : Nat)
  /-- `record_data(x, copy)`; `fails`: `deepcopy` raises. -/
  | record (x : Nat) (copy fails : Bool)
  /-- `x = get_recorded_data()[i][1]`. -/
  | take (x i : Nat)
  /-- `get_recorded_data().append((t, x))`. -/
  | append (t : Rat) (x : Nat)
  /-- `get_recorded_data().clear()`. -/
  | clear
  /-- Time passes. -/
  | advance (t : Rat)
deriving DecidableEq, Repr

inductive Out where
  | ok
  | raised
deriving DecidableEq, Repr

/-- `DataRecorder.record_data` (data_recorder.py 12-30), also through the function (33-52). -/
def record (s : St) (x : Nat) (copy fails : Bool) : St × Out :=
  if copy then
    if fails then (s, .raised)
    else ({ deepcopy s with recorded := s.recorded ++ [(s.now, shift s.next (s.vars x))] }, .ok)
  else ({ s with recorded := s.recorded ++ [(s.now, s.vars x)] }, .ok)

/-- One operation. `get_recorded` (base.py 312-323, data_recorder.py 55-62) returns the list itself. -/
def step (s : St) : Op → St × Out
  | .atom x a => ({ s with vars := upd s.vars x (.atom a) }, .ok)
  | .new x => ({ s with next := s.next + 1, heap := upd s.heap s.next (fun _ => none), vars := upd s.vars x (.ref s.next) }, .ok)
  | .move x y => ({ s with vars := upd s.vars x (s.vars y) }, .ok)
  | .write x k y =>
    match s.vars x with
    | .atom _ => (s, .raised)
    | .ref i => ({ s with heap := upd s.heap i (upd (s.heap i) k (some (s.vars y))) }, .ok)
  | .del x k =>
    match s.vars x with
    | .atom _ => (s, .raised)
    | .ref i => if (s.heap i k).isSome then ({ s with heap := upd s.heap i (upd (s.heap i) k none) }, .ok) else (s, .raised)
  | .read x y k =>
    match s.vars y with
    | .atom _ => (s, .raised)
    | .ref i =>
      match s.heap i k with
      | none => (s, .raised)
      | some v => ({ s with vars := upd s.vars x v }, .ok)
  | .record x copy fails => record s x copy fails
  | .take x i =>
    match s.recorded[i]? with
    | none => (s, .raised)
    | some e => ({ s with vars := upd s.vars x e.2 }, .ok)
  | .append t x => ({ s with recorded := s.recorded ++ [(t, s.vars x)] }, .ok)
  | .clear => ({ s with recorded := [] }, .ok)
  | .advance t => if s.now ≤ t then ({ s with now := t }, .ok) else (s, .raised)

/-- A history. -/
def run (s : St) : List Op → St
  | [] => s
  | o :: r => run (step s o).1 r

end Verif.Snap
