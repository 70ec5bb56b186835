import Verif.Plan.Model
import Verif.Predict.Spec

/-! # When the rehearsal of a network predicts -/

namespace Verif.Plan

open Verif.Predict

variable {K : Type} [Field K] [LinearOrder K] [IsStrictOrderedRing K] {A Op Val : Type}

/-- `E left t x y`: from time `t` on, the tasks cannot tell the actor `x` from the understudy `y`, while the tasks `left` are those listed for the rehearsal that are still to come; they are queued
for the actor. After the listed tasks both have the same queue. -/
structure Matched (M : Methods K (Agent A) Op Val) (stop : Option String) (E : List String → K → Agent A → Agent A → Prop) : Prop where
  congruent : ∀ left, Congruent M (E left)
  listed : ∀ u left t x y, E (u :: left) t x y → x.2.head? = some u ∧ E left t (x.1, x.2.tail) y
  after : stop ≠ none → ∀ t x y, E [] t x y → x.2 = y.2 ∧ E [] t (x.1, x.2.tail) (y.1, y.2.tail)

/-- The network allows the listed tasks. -/
def Feasible (N : Net K Op Val) : String → List String → Prop
  | _, [] => True
  | cur, u :: l => (∃ k, N.links cur = some k ∧ u ∈ k.allowed) ∧ Feasible N u l

/-- Decisions are rehearsed as they are made. -/
def Honest (N : Net K Op Val) : Prop := ∀ u make reh, N.jobs u = some (.decision make reh) → still make = still reh

/-- All tasks of the rehearsal are rehearsed as they are executed (`Verif.Predict.Predictable`). -/
def Plain (M : Methods K (Agent A) Op Val) (N : Net K Op Val) (t0 : K) (b : Agent A) (names : List String) (stop : Option String) : Prop :=
  ∀ n, let r := rehearse M N t0 b names stop n
    r.phase = .running → Predictable r.base (rcodeOf N r.cur r.base.hist)

/-- The loop is where the rehearsal is: the same tasks were begun at the same times, and the current one has seen the same. A task that waits goes on at the time of the rehearsal. -/
structure Along (E : List String → K → Agent A → Agent A → Prop) (r : RNSt K A Val) (s : LSt K A Val) : Prop where
  cur : s.cur = r.cur
  log : s.log = r.log
  actor : E r.left s.base.now s.base.actor r.base.actor
  starting : s.phase = .starting → r.phase = .running ∧ r.base.hist = [] ∧ s.base.now = r.base.time
  executes : s.phase = .running → s.base.waiting = none → r.phase = .running ∧ s.base.hist = r.base.hist ∧ s.base.now = r.base.time
  waits : s.phase = .running → s.base.waiting ≠ none → r.phase = .running ∧ s.base.hist ++ [.resumed] = r.base.hist ∧ s.base.now ≤ r.base.time ∧ s.base.queue ≠ []
  ended : s.phase = .ended → r.phase = .ended ∧ s.base.hist = r.base.hist ∧ s.base.now = r.base.time
  dead : s.phase = .dead → r.phase = .dead

/-- The loop has come to the end of the rehearsal: the last task is over, or the end task is about to begin, at the time at which the rehearsal was over and with an actor like the understudy. -/
structure AtEnd (N : Net K Op Val) (E : List String → K → Agent A → Agent A → Prop) (r : RNSt K A Val) (s : LSt K A Val) : Prop where
  over : r.phase = .over
  now : s.base.now = r.base.now
  actor : E r.left s.base.now s.base.actor r.base.actor
  last : r.ending = none → s.phase = .ended ∧ s.cur = r.cur ∧ s.log = r.log
  stop : ∀ e, r.ending = some e → s.cur = e ∧ s.log = r.log ++ [(e, r.base.now)] ∧ (s.phase = .starting ∨ N.jobs e = none)

/-- Others read. -/
def Harmless (M : Methods K (Agent A) Op Val) (g : Turn K Op) : Prop := Predict.Harmless M g.other

end Verif.Plan
