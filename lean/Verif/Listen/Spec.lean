import Verif.Listen.Model

/-! # Specification for C69 -/

namespace Verif.Listen.Spec

open Verif.Listen

/-- What a receiver is to see of an object found in the store: the content of a `Message`; anything else as `"message"` in a dictionary. -/
def Seen (o o' : Obj) : Prop :=
  (∀ c, o = .message c → o' = c) ∧ ((∀ c, o ≠ .message c) → o' = .content (.wrap o) none)

/-- What a receiver is to see of an object given to `make_put`: contents as they are, dictionaries as data, anything else as text. -/
def Said (o o' : Obj) : Prop :=
  match o with
  | .message c => o' = c
  | .content d t => o' = .content d t
  | .other n => o' = .content .empty (some n)
  | d => o' = .content d none

def effs : Trace → List Eff
  | [] => []
  | e :: tr => effs tr ++ e.2

/-- A message that was accepted. -/
def accOf : Eff → Option Item
  | .accepted p o t => some ⟨p, o, t⟩
  | _ => none

/-- The messages accepted so far, in order. -/
def accepted (tr : Trace) : List Item := (effs tr).filterMap accOf

/-- An effect that hands a message over. -/
def handOf : Eff → Option Eff
  | .called i p o t => some (.called i p o t)
  | .taken g p => some (.taken g p)
  | .lost p => some (.lost p)
  | _ => none

/-- How the messages were handed over so far, in order. -/
def handed (tr : Trace) : List Eff := (effs tr).filterMap handOf

/-- A message is handed over: a callback gets what is to be seen, not before the message was there. -/
def Fits : Eff → Item → Prop
  | .called _ p o t, x => p = x.put ∧ Seen x.obj o ∧ x.time ≤ t
  | .taken _ p, x => p = x.put
  | .lost p, x => p = x.put
  | _, _ => False

/-- A callback is called at the time of the message. -/
def OnTime : Eff → Item → Prop
  | .called _ _ _ t, x => x.time = t
  | _, _ => True

/-- A listener has begun and is not over. -/
def Listening (tr : Trace) (i : Nat) : Prop := .begun i ∈ effs tr ∧ .ended i ∉ effs tr

/-- Whenever time goes on somebody listens. -/
def Attended : Trace → Prop
  | [] => True
  | (.advance d, []) :: tr => (0 < d → ∃ i, Listening tr i) ∧ Attended tr
  | _ :: tr => Attended tr

end Verif.Listen.Spec
