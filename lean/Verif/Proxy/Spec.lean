import Verif.Proxy.Model

/-!
# What dictionary and dataclass states are for their users

No heap and no proxies' insides: every state of every actor **is** a value of its own, a proxy is a name for the state of
an actor, and what the program holds is either an object of its own or the object of a state. The names of operations and
outcomes are the model's, nothing else.
-/

namespace Verif.Proxy.Spec

open Verif.Proxy

variable {V : Type} [DecidableEq V]

/-- What the program has in its hands: an object nobody else has, or that of a state. -/
inductive Hand (V : Type) where
  | own (o : Obj V)
  | of (a n : Nat)

/-- The values of the states of an actor, and what is written down of each key. -/
structure Actor (V : Type) where
  obj : Nat → Option (Obj V)
  hist : Nat → String → List (Rat × V)

structure St (V : Type) where
  now : Rat
  actors : List (Actor V)
  hands : List (Hand V)
  px : List (Nat × Nat)

/-- The value of a state. -/
def St.val (s : St V) (a n : Nat) : Option (Obj V) := (s.actors[a]?).bind fun b => b.obj n

/-- What a hand holds. -/
def St.held (s : St V) (h : Nat) : Option (Obj V) :=
  match s.hands[h]? with
  | none => none
  | some (.own o) => some o
  | some (.of a n) => s.val a n

def St.arg (s : St V) : Arg → Option (Obj V)
  | .mine h => s.held h
  | .proxy p => (s.px[p]?).bind fun x => s.val x.1 x.2

/-- The entry of a key becomes `v`; a new key comes last. -/
def put (d : Dict String V) (k : String) (v : V) : Dict String V :=
  if k ∈ d.map (·.1) then d.map fun p => if p.1 = k then (k, v) else p else d ++ [(k, v)]

def putObj (o : Obj V) (k : String) (v : V) : Obj V :=
  match o with
  | .dict d => .dict (put d k v)
  | .data c d => .data c (put d k v)

/-- Two dictionaries are equal if they say the same of every key. -/
def same (d e : Dict String V) : Bool := decide (∀ k ∈ d.map (·.1) ++ e.map (·.1), Dict.get? d k = Dict.get? e k)

def sameObj : Obj V → Obj V → Bool
  | .dict d, .dict e => same d e
  | .data c d, .data c' e => decide (c = c' ∧ d = e)
  | _, _ => false

/-- A value is written down with the time unless that is what stands there last. -/
def note (now : Rat) (h : List (Rat × V)) (v : V) : List (Rat × V) := if h.getLast? = some (now, v) then h else h ++ [(now, v)]

/-- Writing to a state through a proxy. -/
def assign (s : St V) (df : Def V) (a n : Nat) (k : String) (v : V) : St V :=
  { s with actors := s.actors.modify a fun b =>
      { obj := fun m => if m = n then (b.obj n).map (putObj · k v) else b.obj m
        hist := fun m k' => if m = n ∧ k' = k ∧ df.recording = true then note s.now (b.hist n k) v else b.hist m k' } }

/-- A change of a value that is not written down. -/
def alter (s : St V) (a n : Nat) (k : String) (v : V) : St V :=
  { s with actors := s.actors.modify a fun b =>
      { b with obj := fun m => if m = n then (b.obj n).map (putObj · k v) else b.obj m } }

/-- A new actor: every state has its value, and what is recorded begins with it. -/
def born (C : Cfg V) (now : Rat) (obj : Nat → Option (Obj V)) : Actor V where
  obj := obj
  hist := fun n k =>
    match C.states.get? n, obj n with
    | some df, some o => if df.recording = true then (match Dict.get? (entries o) k with | some v => [(now, v)] | none => []) else []
    | _, _ => []

/-- The values given for the states; a dictionary for a dictionary state with values of the right type, a data object
of a right class for the others. -/
def suits (df : Def V) : Obj V → Bool
  | .dict d => decide (df.kind = .dict) && d.all fun p => df.okVal p.2
  | .data c _ => decide (df.kind = .data) && df.okCls (some c)

def given (C : Cfg V) (s : St V) (args : Dict Nat Arg) (n : Nat) : Option (Obj V) :=
  match C.states.get? n with
  | none => none
  | some _ => (args.get? n).bind s.arg

/-- All states are given, no others, and suitably. -/
def complete (C : Cfg V) (s : St V) (args : Dict Nat Arg) : Bool :=
  (C.states.all fun p => match given C s args p.1 with | some o => suits p.2 o | none => false) &&
    args.all fun p => C.states.has p.1

/-- The object given for a dataclass state becomes the state's. -/
def handOver (C : Cfg V) (args : Dict Nat Arg) (a : Nat) (h : Nat) (x : Hand V) : Hand V :=
  match args.find? fun p => match p.2, C.states.get? p.1 with | .mine h', some df => decide (h' = h ∧ df.kind = .data) | _, _ => false with
  | some p => .of a p.1
  | none => x

def build (C : Cfg V) (s : St V) (args : Dict Nat Arg) : St V × Out V :=
  if complete C s args then
    ({ s with actors := s.actors ++ [born C s.now (given C s args)]
              hands := s.hands.mapIdx (handOver C args s.actors.length) }, .actor s.actors.length)
  else (s, .raised)

/-- A clone has the same values; nothing of them is shared. -/
def clone (C : Cfg V) (s : St V) (i : Nat) : St V × Out V :=
  match s.actors[i]? with
  | none => (s, .impossible)
  | some b => ({ s with actors := s.actors ++ [born C s.now b.obj] }, .actor s.actors.length)

def item (o : Obj V) (k : String) : Out V :=
  match Dict.get? (entries o) k with
  | some v => .val v
  | none => .raised

/-- A field of a class takes this value. -/
def fits (C : Cls V) (k : String) (v : V) : Bool := (C.fields.any fun f => decide (f.name = k)) && C.ok k v && !C.frozen

/-- Using a proxy of the state `n` of actor `a`, whose value is `o`. -/
def use (C : Cfg V) (s : St V) (df : Def V) (a n : Nat) (o : Obj V) : POp V → St V × Out V
  | .setItem k v =>
    match o with
    | .data _ _ => (s, .raised)
    | .dict _ => if df.okVal v then (assign s df a n k v, .done) else (s, .raised)
  | .setDefault k v =>
    match o with
    | .data _ _ => (s, .raised)
    | .dict d =>
      match Dict.get? d k with
      | some w => (s, .val w)
      | none => if df.okVal v then (assign s df a n k v, .val v) else (s, .raised)
  | .getItem k => (s, match o with | .dict _ => item o k | _ => .raised)
  | .has k => (s, match o with | .dict d => .bool (decide (k ∈ d.map (·.1))) | _ => .raised)
  | .len => (s, match o with | .dict d => .num d.length | _ => .raised)
  | .keys => (s, match o with | .dict d => .keys (d.map (·.1)) | _ => .raised)
  | .items => (s, match o with | .dict d => .items d | _ => .raised)
  | .getAttr k => (s, match o with | .data _ _ => item o k | _ => .raised)
  | .setAttr k v =>
    match o with
    | .dict _ => (s, .impossible)
    | .data c _ => if fits (C.cls c) k v then (assign s df a n k v, .done) else (s, .raised)
  | .eqMine h => (s, match s.held h with | some x => .bool (sameObj o x) | none => .impossible)
  | .eqProxy q => (s, match s.arg (.proxy q) with | some x => .bool (sameObj o x) | none => .impossible)
  | .raw => ({ s with hands := s.hands ++ [.of a n] }, .handle s.hands.length)

/-- A data object without this field. -/
def lacks (k : String) : Obj V → Bool
  | .dict _ => false
  | .data _ d => decide (k ∉ d.map (·.1))

/-- An instance of a frozen dataclass. -/
def frozen (C : Cfg V) : Obj V → Bool
  | .dict _ => false
  | .data c _ => (C.cls c).frozen

def write (C : Cfg V) (s : St V) (h : Nat) (k : String) (v : V) : St V × Out V :=
  match s.held h with
  | none => (s, .impossible)
  | some o =>
    if lacks k o then (s, .impossible)
    else if frozen C o then (s, .raised)
    else
      match s.hands[h]? with
      | some (.of a n) => (alter s a n k v, .done)
      | _ => ({ s with hands := s.hands.set h (.own (putObj o k v)) }, .done)

def step (C : Cfg V) (s : St V) : Op V → St V × Out V
  | .newDict d => if d.keys.Nodup then ({ s with hands := s.hands ++ [.own (.dict d)] }, .handle s.hands.length) else (s, .impossible)
  | .newData c vals => ({ s with hands := s.hands ++ [.own (.data c (made (C.cls c) vals))] }, .handle s.hands.length)
  | .write h k v => write C s h k v
  | .read h k => (s, match s.held h with | some o => item o k | none => .impossible)
  | .build args => build C s args
  | .clone i => clone C s i
  | .get i n =>
    match s.actors[i]? with
    | none => (s, .impossible)
    | some b => if (b.obj n).isSome then ({ s with px := s.px ++ [(i, n)] }, .proxy s.px.length) else (s, .raised)
  | .use p op =>
    match s.px[p]? with
    | none => (s, .impossible)
    | some (a, n) =>
      match s.val a n, C.states.get? n with
      | some o, some df => use C s df a n o op
      | _, _ => (s, .impossible)
  | .advance dt => if 0 ≤ dt then ({ s with now := s.now + dt }, .done) else (s, .raised)

def init (t0 : Rat) : St V := ⟨t0, [], [], []⟩

def run (C : Cfg V) : List (Op V) → St V → St V × List (Out V)
  | [], s => (s, [])
  | op :: l, s => ((run C l (step C s op).1).1, (step C s op).2 :: (run C l (step C s op).1).2)

/-- What the code does not do as above; see `Verif.Proxy.Limits` for each. A value of a wrong type; a field whose annotation
is inherited or a name that is no field; two proxies of dictionaries compared. -/
def FineUse (C : Cfg V) (s : St V) (df : Def V) : Obj V → POp V → Prop
  | .dict _, .setItem _ v => df.okVal v = true
  | .dict _, .setDefault _ v => df.okVal v = true
  | .data c _, .setAttr k _ => ∃ f ∈ (C.cls c).fields, f.name = k ∧ f.own = true
  | .dict _, .eqProxy q => ∀ e, s.arg (.proxy q) ≠ some (.dict e)
  | _, _ => True

/-- A data object given to two states, or not an object of the program's own; a clone of dictionaries with values of wrong
types, or of objects with fields that the constructor does not take. -/
def Fine (C : Cfg V) (s : St V) : Op V → Prop
  | .build args => args.keys.Nodup ∧
      (∀ n x df, args.get? n = some x → C.states.get? n = some df → df.kind = .data →
        ∃ h c d, x = .mine h ∧ s.hands[h]? = some (.own (.data c d))) ∧
      ∀ n m h df dg, args.get? n = some (.mine h) → C.states.get? n = some df → df.kind = .data →
        args.get? m = some (.mine h) → C.states.get? m = some dg → dg.kind = .data → n = m
  | .clone i => ∀ b n df, s.actors[i]? = some b → C.states.get? n = some df →
      (∀ d, b.obj n = some (.dict d) → ∀ p ∈ d, df.okVal p.2 = true) ∧
      ∀ c d, b.obj n = some (.data c d) → ∀ f ∈ (C.cls c).fields, f.init = true
  | .use p op => ∀ a n o df, s.px[p]? = some (a, n) → s.val a n = some o → C.states.get? n = some df → FineUse C s df o op
  | _ => True

/-- All along a run. -/
def AllFine (C : Cfg V) : List (Op V) → St V → Prop
  | [], _ => True
  | op :: l, s => Fine C s op ∧ AllFine C l (step C s op).1

/-- A declaration: names of states and of the fields of a class are not repeated. -/
def Declared (C : Cfg V) : Prop := C.states.keys.Nodup ∧ ∀ c, ((C.cls c).fields.map (·.name)).Nodup

end Verif.Proxy.Spec
