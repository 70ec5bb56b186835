import Verif.Util.Dict

/-!
# Routing of messages over a network

Source: `/repo/src/upstage_des/communications/routing.py`. Actors are numbers; the code keys its maps by the names of the
actors, which are taken to be unique. A Python set is a list in the order of its iteration; as a set made from another may
iterate in another order, the functions below take a function `ord` that reorders the sets computed by `select_hop`.
-/

namespace Verif.Routing

/-- `_network` (routing.py 227): node to set of nodes. -/
abbrev Net := Dict Nat (List Nat)

/-- `network.get(node, set())` (routing.py 24). -/
def adj (net : Net) (u : Nat) : List Nat := (net.get? u).getD []

/-- A queue entry: the node and the path to it (routing.py 19, 29). -/
abbrev Entry := Nat × List Nat

/-- The loop over the neighbours (routing.py 24-29): a path if the goal is among them, or the new visited set and queue. -/
def scan (goal : Nat) (path : List Nat) : List Nat → List Nat → List Entry → List Nat ⊕ (List Nat × List Entry)
  | [], vis, q => .inr (vis, q)
  | n :: r, vis, q =>
    if n = goal then .inl (path ++ [n])
    else if n ∈ vis then scan goal path r vis q
    else scan goal path r (n :: vis) (q ++ [(n, path ++ [n])])

/-- Outcome of the search. `stuck` is that the model ran out of steps; `bfs_not_stuck` shows it never does. -/
inductive Found where
  | path (p : List Nat)
  | noPath
  | stuck
deriving DecidableEq, Repr

/-- The `while` loop (routing.py 22-30). -/
def bfs (net : Net) (goal : Nat) : Nat → List Entry → List Nat → Found
  | _, [], _ => .noPath
  | 0, _ :: _, _ => .stuck
  | fuel + 1, (node, path) :: q, vis =>
    match scan goal path (adj net node) vis q with
    | .inl p => .path p
    | .inr (vis', q') => bfs net goal fuel q' vis'

/-- All nodes listed as neighbours. -/
def listed (net : Net) : List Nat := net.flatMap (·.2)

/-- `_shortest_path` (routing.py 17-30). -/
def shortestPath (net : Net) (start goal : Nat) : Found :=
  bfs net goal ((listed net).length + 1) [(start, [start])] [start]

/-- `{k: v - set(ignore_names) for k, v in self._network.items() if k not in ignore_names}` (routing.py 271). -/
def without (ord : List Nat → List Nat) (net : Net) (ign : List Nat) : Net :=
  (net.filter fun e => !decide (e.1 ∈ ign)).map fun e => (e.1, ord (e.2.filter fun x => !decide (x ∈ ign)))

/-- `RoutingTableCommsManager.select_hop` (routing.py 250-276). -/
def selectHop (ord : List Nat → List Nat) (net : Net) (u v : Nat) (ign : List Nat) : Option Nat :=
  match net.get? u with
  | none => none
  | some ns =>
    if v ∈ ns then some v
    else
      match shortestPath (without ord net ign) u v with
      | .path p => p[1]?
      | _ => none

/-- `set.add`. -/
def add (l : List Nat) (x : Nat) : List Nat := if x ∈ l then l else l ++ [x]

/-- `connect_nodes` (routing.py 229-248), once both actors have passed the test for a communication store. -/
def connect (net : Net) (u v : Nat) (twoWay : Bool) : Net :=
  let net1 := net.set u (add (adj net u) v)
  if twoWay then net1.set v (add (adj net1 v) u) else net1

/-- Where a routed message is. -/
inductive Fate where
  | moving
  | dropped
  | delivered
deriving DecidableEq, Repr

/-- The local variables of `_do_transmit` (routing.py 98-99) and how far it is. -/
structure St where
  curr : Nat
  failed : List Nat
  fate : Fate
deriving DecidableEq, Repr

/-- One hop tried: from, to, whether the attempt succeeded. -/
structure Try where
  src : Nat
  dst : Nat
  ok : Bool
deriving DecidableEq, Repr

/-- What the manager is given. -/
structure Cfg where
  net : Net
  ord : List Nat → List Nat
  globalIgnore : Bool
  dest : Nat

/-- The start (routing.py 98-100): a message to oneself is put at once. -/
def start (c : Cfg) (source : Nat) : St := ⟨source, [], if source = c.dest then .delivered else .moving⟩

/-- One turn of the `while` loop of `_do_transmit` (routing.py 100-119). `up a b` is what `_attempt` (comms.py 303-317, see
`Comms`) over the link from `a` to `b` returns this time. Logging and the time each step takes are left out; the final put
into the store (routing.py 121-125) is part of the turn that reaches the destination. -/
def turn (c : Cfg) (up : Nat → Nat → Bool) (s : St) : St × Option Try :=
  match s.fate with
  | .moving =>
    match selectHop c.ord c.net s.curr c.dest s.failed with
    | none => ({ s with fate := .dropped }, none)
    | some hop =>
      if up s.curr hop then
        ({ curr := hop, failed := if c.globalIgnore then s.failed else [],
           fate := if hop = c.dest then .delivered else .moving }, some ⟨s.curr, hop, true⟩)
      else ({ s with failed := s.failed ++ [hop] }, some ⟨s.curr, hop, false⟩)
  | _ => (s, none)

/-- `n` turns; `up k` is how the links behave at turn `k`. -/
def after (c : Cfg) (up : Nat → Nat → Nat → Bool) (s : St) : Nat → St
  | 0 => s
  | n + 1 => (turn c (up n) (after c up s n)).1

/-- The attempt made at turn `n`. -/
def tried (c : Cfg) (up : Nat → Nat → Nat → Bool) (s : St) (n : Nat) : Option Try := (turn c (up n) (after c up s n)).2

end Verif.Routing
