import Verif.Build.Model

/-!
# Specification for C66: what an actor should hold after it was made
-/

namespace Verif.Build

/-- Made between `s0` and `s`. -/
def New (s0 s : St) (i : Nat) : Prop := s0.next ≤ i ∧ i < s.next

/-- Object `i` is a resource as the dictionary `D` asks for: of its kind, else of the default class, made with the default keyword
arguments, overridden by its own. -/
def Made (s : St) (i : Nat) (r : Res) (D : Desc) : Prop :=
  D.kind.or r.default = some (s.cls i) ∧ s.given i = update r.kw D.kw

/-- Resource states: a resource that was given is there itself; otherwise there is a new one, as described. -/
def Resource (s0 s : St) (a : Nat) (n : String) (r : Res) : Option Val → Prop
  | none => ∃ i, New s0 s i ∧ Made s i r .empty ∧ s.attrs a n = some (.obj i)
  | some (.dict d) => ∃ i, New s0 s i ∧ Made s i r (s0.dicts d) ∧ s.attrs a n = some (.obj i)
  | some v => s.attrs a n = some v

/-- One entry of a `MultiStoreState`, with the same rule. -/
def Entry (s0 s : St) (r : Res) (x : Option Val) : Option Val → Prop
  | none => ∃ i, New s0 s i ∧ Made s i r .empty ∧ x = some (.obj i)
  | some (.dict d) => ∃ i, New s0 s i ∧ Made s i r (s0.dicts d) ∧ x = some (.obj i)
  | some v => x = some v

/-- The actor `a` holds in state `n` what was given, else the default. -/
def Built (s0 s : St) (a : Nat) (n : String) : Def → Option Val → Prop
  | .plain _, some v => s.attrs a n = some v
  | .plain p, none =>
    match p.factory with
    | some (.make c) => ∃ i, New s0 s i ∧ s.cls i = c ∧ s.attrs a n = some (.obj i)
    | some .draw => ∃ j, s0.count ≤ j ∧ j < s.count ∧ s.attrs a n = some (.drawn j)
    | none => s.attrs a n = if p.default = .none then none else some p.default
  | .resource r, arg => Resource s0 s a n r arg
  | .comm r _, arg => Resource s0 s a n r arg
  | .multi r, some (.table t) =>
    ∃ j l, New s0 s j ∧ s.attrs a n = some (.table j) ∧ s.tables j = .named l ∧
      (∀ k v, (k, v) ∈ (s0.tables t).entries → Entry s0 s r (l.get? k) v) ∧
      ∀ k, l.get? k ≠ none → k ∈ (s0.tables t).entries.map (·.1)
  | .multi _, _ => False

/-- The modes of a communication store: those of its dictionary, else those of the class. -/
def modesOf (s : St) (m : Option (List String)) : Option Val → Option (List String)
  | some (.dict d) => (s.dicts d).modes.or m
  | _ => m

/-- The caller describes a resource that can be made: a class is known, it is one of the valid ones, and it takes the arguments. -/
def FitsDesc (W : World) (r : Res) (D : Desc) : Prop :=
  ∃ c, D.kind.or r.default = some c ∧ (r.valid = [] ∨ ∃ t ∈ r.valid, W.sub c t = true) ∧
    W.accepts c (update r.kw D.kw) D.modes = true

/-- One entry for a `MultiStoreState` is acceptable. -/
def FitsEntry (W : World) (s : St) (r : Res) : Option Val → Prop
  | none => FitsDesc W r .empty
  | some (.dict d) => FitsDesc W r (s.dicts d)
  | some v => r.valid = [] ∨ ∃ t ∈ r.valid, isA W s v t = true

/-- A resource state accepts the value. -/
def FitsRes (W : World) (s : St) (r : Res) : Val → Prop
  | .dict d => FitsDesc W r (s.dicts d)
  | v => ∃ t ∈ r.valid, isA W s v t = true

/-- A state accepts the value. -/
def Fits (W : World) (s : St) : Def → Val → Prop
  | .plain p, v => p.types = [] ∨ ∃ t ∈ p.types, isA W s v t = true
  | .resource r, v => FitsRes W s r v
  | .comm r m, .dict d => FitsDesc W r { s.dicts d with modes := none } ∧ ((s.dicts d).modes ≠ none ∨ m ≠ none)
  | .comm r m, v => FitsRes W s r v ∧ m ≠ none
  | .multi r, .table t => ∀ e ∈ (s.tables t).entries, FitsEntry W s r e.2
  | .multi _, _ => False

/-- A state that was not given has a default, and the default is acceptable. -/
def FitsDefault (W : World) (s : St) : Def → Prop
  | .plain p =>
    match p.factory with
    | some (.make c) => p.types = [] ∨ ∃ t ∈ p.types, W.sub c t = true
    | some .draw => p.types = [] ∨ ∃ t ∈ p.types, W.drawnIs t = true
    | none =>
      if p.default = .none then p.allowNone = true
      else p.types = [] ∨ ∃ t ∈ p.types, isA W s p.default t = true
  | .resource r => FitsDesc W r .empty
  | .comm r m => FitsDesc W r .empty ∧ m ≠ none
  | .multi _ => False

/-- The value mentions the dictionary `d`. -/
def Mentions (s : St) (d : Nat) : Val → Prop
  | .dict e => e = d
  | .table t => ∃ e ∈ (s.tables t).entries, e.2 = some (.dict d)
  | _ => False

/-- The argument is a dictionary with modes for a communication store. -/
def TakesModes (s : St) (defs : Dict String Def) (d : Nat) (arg : String × Val) : Prop :=
  arg.2 = .dict d ∧ (s.dicts d).modes ≠ none ∧ ∃ r m, defs.get? arg.1 = some (.comm r m)

/-- A dictionary with modes for a communication store is used for nothing else. -/
def Apart (s : St) (defs : Dict String Def) (args : List (String × Val)) : Prop :=
  ∀ x ∈ args, ∀ y ∈ args, ∀ d, TakesModes s defs d x → Mentions s d y.2 → y = x

/-- The state of the class is filled with a random number unless it is given. -/
def Draws (defs : Dict String Def) (n : String) : Prop := ∃ p, defs.get? n = some (.plain p) ∧ p.factory = some .draw

/-- States that hold resources. -/
def Def.Holds : Def → Prop
  | .plain _ => False
  | _ => True

/-- A place that can hold an object: a state of an actor, or an entry of a table. -/
inductive Place where
  | attr (a : Nat) (n : String)
  | entry (t : Nat) (k : String)

/-- What is at a place. -/
def Place.at (s : St) : Place → Option Val
  | .attr a n => s.attrs a n
  | .entry t k => match s.tables t with
    | .named l => l.get? k
    | .names _ => none

end Verif.Build
