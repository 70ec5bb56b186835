import Verif.Util.Dict
import Mathlib.Algebra.Order.Ring.Rat

/-!
# Contexts, the stage and the registration of entities

Source: `/repo/src/upstage_des/base.py` 35-75, 207-219, 373-452, 483-649; the special groups of actors (actor.py 257-265) and
monitored resources (monitoring.py 40-48); `data_recorder.py` 13-31. Names, values, classes and objects are numbers.
-/

namespace Verif.Ctx

/-- Which special list an instance goes to (`_add_special_group`: base.py 403, actor.py 257, monitoring.py 40). -/
inductive Special where
  | none
  | actor
  | monitored
deriving DecidableEq, Repr

/-- A subclass of `NamedUpstageEntity` as written by the user. -/
structure Cls where
  /-- `cls.__name__`. -/
  name : Nat
  /-- `cls.mro()` without `cls` and without classes that are not entity classes; the numbers of earlier classes. -/
  bases : List Nat
  /-- The `entity_groups` argument. -/
  declared : List Nat
  /-- `add_to_entity_groups=False`. -/
  optOut : Bool
  skipName : Bool
  special : Special
deriving DecidableEq, Repr

/-- `set.add`. -/
def add (l : List Nat) (x : Nat) : List Nat := if x ∈ l then l else l ++ [x]

/-- Adding all of a list. -/
def addAll (l : List Nat) (xs : List Nat) : List Nat := xs.foldl add l

/-- `__init_subclass__` (base.py 429-452): the `_entity_groups` of a class, given those of the earlier classes. -/
def ownGroups (attrs : List (List Nat)) (c : Cls) : List Nat :=
  if c.optOut then []
  else
    let g := addAll [] c.declared
    let g := if c.name ∉ g ∧ c.skipName = false then add g c.name else g
    c.bases.foldl (fun g b => addAll g (attrs.getD b [])) g

/-- `_entity_groups` of the classes, in the order of their definition. -/
def groupsOf (cs : List Cls) : List (List Nat) := cs.foldl (fun attrs c => attrs ++ [ownGroups attrs c]) []

/-- `SpecialContexts` (base.py 207-213). -/
structure Lists where
  actors : List Nat
  monitored : List Nat
  recorded : List (Rat × Nat)
deriving DecidableEq, Repr

/-- What `__enter__` saves (base.py 556-560): the values before; `used` says that the tokens have been used. -/
structure Tokens where
  env : Option Nat
  lists : Option Nat
  ents : Option Nat
  stage : Option Nat
  used : Bool
deriving DecidableEq, Repr

/-- The four context variables (base.py 216-219) hold references to objects; the objects are kept by reference. -/
structure St where
  next : Nat
  vEnv : Option Nat
  vLists : Option Nat
  vEnts : Option Nat
  vStage : Option Nat
  env : Nat → Rat
  lists : Nat → Lists
  ents : Nat → Dict Nat (List Nat)
  stage : Nat → Dict Nat Nat
  ctxs : Nat → Option Tokens

/-- Nothing entered yet. -/
def init : St := ⟨0, none, none, none, none, fun _ => 0, fun _ => ⟨[], [], []⟩, fun _ => [], fun _ => [], fun _ => none⟩

/-- The classes, `SKIP_GROUPS` (base.py 222), the names that are attributes of `dict`, `==` of entities (identity unless a
class overrides it), the order in which a set is iterated. -/
structure Cfg where
  classes : List Cls
  skip : List Nat
  dictAttrs : List Nat
  eqv : Nat → Nat → Bool
  ord : List Nat → List Nat

def upd {α : Type} (f : Nat → α) (k : Nat) (v : α) : Nat → α := fun x => if x = k then v else f x

/-- The name `random`. -/
def random : Nat := 0

inductive Op where
  /-- `add_stage_variable` (base.py 577-592). -/
  | addVar (x v : Nat)
  /-- `get_stage_variable` (base.py 595-610). -/
  | getVar (x : Nat)
  /-- `stage.x = v` (base.py 56-67). -/
  | setAttr (x v : Nat)
  /-- `stage["x"] = v`: the method of `dict`. -/
  | setItem (x v : Nat)
  /-- `del stage.x` (base.py 69-75). -/
  | delAttr (x : Nat)
  /-- An instance `obj` of class number `cls` is made: `NamedUpstageEntity.__init__` (base.py 424-427). -/
  | make (obj cls : Nat)
  /-- `record_data` (data_recorder.py 13-31), without the copy. -/
  | record (v : Nat)
  /-- The environment runs to time `t`. -/
  | runTo (t : Rat)
deriving DecidableEq, Repr

inductive Out where
  | ok
  | raised
  | value (v : Nat)
  /-- A method of `dict`. -/
  | method
  | made (obj cls : Nat)
  /-- What happened in a `with` block. -/
  | inner (l : List Out)

/-- Did it raise? (`inner` is not used for this.) -/
def Out.failed : Out → Bool
  | .raised => true
  | _ => false

/-- `_add_to_group` (base.py 387-401); `false` is the exception. -/
def addToGroup (cfg : Cfg) (s : St) (obj g : Nat) : St × Bool :=
  match s.vEnts with
  | some i =>
    let d := s.ents i
    let l := (d.get? g).getD []
    if l.any (fun o => cfg.eqv obj o) then ({ s with ents := upd s.ents i (d.set g l) }, false)
    else ({ s with ents := upd s.ents i (d.set g (l ++ [obj])) }, true)
  | none => ({ s with next := s.next + 1, ents := upd s.ents s.next [(g, [obj])], vEnts := some s.next }, true)

/-- The loop of `_add_entity` (base.py 418-421). -/
def addGroups (cfg : Cfg) (obj : Nat) : List Nat → St → St × Bool
  | [], s => (s, true)
  | g :: r, s =>
    if g ∈ cfg.skip then addGroups cfg obj r s
    else
      let (s1, ok) := addToGroup cfg s obj g
      if ok then addGroups cfg obj r s1 else (s1, false)

/-- `_add_special_group`. Without a context the lookup raises. -/
def addSpecial (cfg : Cfg) (s : St) (obj : Nat) : Special → St × Bool
  | .none => (s, true)
  | .actor =>
    match s.vLists with
    | none => (s, false)
    | some i =>
      let l := s.lists i
      if l.actors.any (fun o => cfg.eqv obj o) then (s, true)
      else ({ s with lists := upd s.lists i { l with actors := l.actors ++ [obj] } }, true)
  | .monitored =>
    match s.vLists with
    | none => (s, false)
    | some i =>
      let l := s.lists i
      if l.monitored.any (fun o => cfg.eqv obj o) then (s, true)
      else ({ s with lists := upd s.lists i { l with monitored := l.monitored ++ [obj] } }, true)

def step (cfg : Cfg) (s : St) : Op → St × Out
  | .addVar x v =>
    match s.vStage with
    | none => (s, .raised)
    | some i =>
      if (s.stage i).has x then (s, .raised) else ({ s with stage := upd s.stage i ((s.stage i).set x v) }, .ok)
  | .getVar x =>
    match s.vStage with
    | none => (s, .raised)
    | some i =>
      match (s.stage i).get? x with
      | none => (s, .raised)
      | some v => (s, if x ∈ cfg.dictAttrs then .method else .value v)
  | .setAttr x v =>
    match s.vStage with
    | none => (s, .raised)
    | some i =>
      if (s.stage i).has x then (s, .raised) else ({ s with stage := upd s.stage i ((s.stage i).set x v) }, .ok)
  | .setItem x v =>
    match s.vStage with
    | none => (s, .raised)
    | some i => ({ s with stage := upd s.stage i ((s.stage i).set x v) }, .ok)
  | .delAttr x =>
    match s.vStage with
    | none => (s, .raised)
    | some i =>
      if (s.stage i).has x then ({ s with stage := upd s.stage i ((s.stage i).del x) }, .ok) else (s, .raised)
  | .make obj c =>
    match cfg.classes[c]? with
    | none => (s, .raised)
    | some k =>
      let (s1, ok) := addGroups cfg obj (cfg.ord ((groupsOf cfg.classes).getD c [])) s
      if ok then
        let (s2, ok2) := addSpecial cfg s1 obj k.special
        (s2, if ok2 then .made obj c else .raised)
      else (s1, .raised)
  | .record v =>
    match s.vLists, s.vEnv with
    | some i, some e =>
      ({ s with lists := upd s.lists i { s.lists i with recorded := (s.lists i).recorded ++ [(s.env e, v)] } }, .ok)
    | _, _ => (s, .raised)
  | .runTo t =>
    match s.vEnv with
    | none => (s, .raised)
    | some e => if s.env e < t then ({ s with env := upd s.env e t }, .ok) else (s, .raised)

/-- `EnvironmentContext.__enter__` (base.py 549-566) of context object `c`. -/
def enter (s : St) (c : Nat) (t : Rat) (rng : Nat) : St :=
  { next := s.next + 1, vEnv := some s.next, vLists := some s.next, vEnts := some s.next, vStage := some s.next,
    env := upd s.env s.next t, lists := upd s.lists s.next ⟨[], [], []⟩, ents := upd s.ents s.next [],
    stage := upd s.stage s.next [(random, rng)],
    ctxs := upd s.ctxs c (some ⟨s.vEnv, s.vLists, s.vEnts, s.vStage, false⟩) }

/-- `__exit__` (base.py 568-574). A token can be used once; a context never entered has none. -/
def exit (s : St) (c : Nat) : St × Bool :=
  match s.ctxs c with
  | none => (s, false)
  | some k =>
    if k.used then (s, false)
    else ({ s with vEnv := k.env, vLists := k.lists, vEnts := k.ents, vStage := k.stage,
                   ctxs := upd s.ctxs c (some { k with used := true }) }, true)

/-- A program: single operations, `with EnvironmentContext(...)` blocks (of the context object `c`), and
`try ... except` around commands. -/
inductive Cmd where
  | op (o : Op)
  | block (c : Nat) (t : Rat) (rng : Nat) (body : List Cmd)
  | attempt (body : List Cmd)

mutual
/-- Running one command; the flag says that an exception left it. -/
def exec (cfg : Cfg) (s : St) : Cmd → St × Bool × List Out
  | .op o => ((step cfg s o).1, (step cfg s o).2.failed, [(step cfg s o).2])
  | .block c t rng body =>
    let r := execs cfg (enter s c t rng) body
    let e := exit r.1 c
    (e.1, r.2.1 || !e.2, [.inner r.2.2])
  | .attempt body =>
    let r := execs cfg s body
    (r.1, false, r.2.2)
/-- Running commands until one raises. -/
def execs (cfg : Cfg) (s : St) : List Cmd → St × Bool × List Out
  | [] => (s, false, [])
  | c :: r =>
    let a := exec cfg s c
    if a.2.1 then a
    else
      let b := execs cfg a.1 r
      (b.1, b.2.1, a.2.2 ++ b.2.2)
end

end Verif.Ctx
