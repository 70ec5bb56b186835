import Verif.Letters.Model

/-! # The way of a message, as the debug log is to tell it -/

namespace Verif.Letters

/-- An entry without the numbers of the transmission and the message: time, event, from, to. -/
abbrev Note := Rat × Event × Nat × Nat

/-- The entries of one transmission. -/
def notes (log : List Entry) (id : Nat) : List Note := (log.filter fun e => e.id == id).map fun e => (e.time, e.event, e.current, e.dest)

/-- `k` vain checks of a link, the first at `t`. -/
def waits (rate : Rat) (c hop : Nat) (t : Rat) (k : Nat) : List Note := (List.range k).map fun j : Nat => (t + (j : Rat) * rate, .waiting, c, hop)

/-- The sending delay. -/
def delay (cfg : Cfg) : Rat := max 0 cfg.sendTime

/-- The budget: how many vain checks end an attempt. -/
def budget (cfg : Cfg) : Int := ⌈cfg.max / cfg.rate⌉

/-- A point to point transmission that succeeded at `t`, after `k` vain checks. -/
def Straight (cfg : Cfg) (sender dest : Nat) (born t : Rat) (l : List Note) : Prop :=
  ∃ k : Nat, (∀ j : Nat, j < k → (j : Int) ≠ budget cfg) ∧ t = born + k * cfg.rate + delay cfg ∧
    l = waits cfg.rate sender dest born k ++ [(t, .sent, sender, dest)]

/-- A point to point transmission that was given up. -/
def GivenUp (cfg : Cfg) (sender dest : Nat) (born : Rat) (l : List Note) : Prop :=
  ∃ k : Nat, (k : Int) = budget cfg ∧ l = waits cfg.rate sender dest born k ++ [(born + k * cfg.rate, .stopped, sender, dest)]

/-- A routed message that left `sender` at `born` can be at node `c` at time `t`, with the entries `l` so far: attempts one after the other, each of which
is given up where it was made after the whole budget, or leads to the next node after the delay. -/
inductive Way (cfg : Cfg) (sender : Nat) (born : Rat) : Nat → Rat → List Note → Prop where
  | start : Way cfg sender born sender born []
  | fail {c : Nat} {t : Rat} {l : List Note} (hop k : Nat) (hk : (k : Int) = budget cfg) (h : Way cfg sender born c t l) :
      Way cfg sender born c (t + k * cfg.rate) (l ++ waits cfg.rate c hop t k ++ [(t + k * cfg.rate, .stopped, c, hop)])
  | move {c : Nat} {t : Rat} {l : List Note} (hop k : Nat) (hk : ∀ j : Nat, j < k → (j : Int) ≠ budget cfg) (h : Way cfg sender born c t l) :
      Way cfg sender born hop (t + k * cfg.rate + delay cfg) (l ++ waits cfg.rate c hop t k ++ [(t + k * cfg.rate, .moved, c, hop)])

/-- The event that ends a transmission well. -/
def Event.final : Event → Bool
  | .sent => true
  | .reached => true
  | _ => false

/-- The last time a message was sent, according to the log. -/
def lastSent (log : List Entry) (ref : Nat) : Option Rat := ((log.filter fun e => e.message == ref && e.event.final).getLast?).map (·.time)

/-- Logging is never switched off. -/
def On (ops : List Op) : Prop := ∀ b, Op.setLogging b ∈ ops → b = true

end Verif.Letters
