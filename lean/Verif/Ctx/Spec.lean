import Verif.Ctx.Model

/-!
# What is visible, without references, tokens or variables

A program sees the four things of the context it runs in. A `with` block starts from fresh ones and leaves those outside as
they are.
-/

namespace Verif.Ctx

/-- What is visible. -/
structure View where
  env : Option Rat
  lists : Option Lists
  ents : Option (Dict Nat (List Nat))
  stage : Option (Dict Nat Nat)
deriving DecidableEq

/-- What a new context shows: the clock at `t`, nothing registered or recorded, only `random` on the stage. -/
def fresh (t : Rat) (rng : Nat) : View := ⟨some t, some ⟨[], [], []⟩, some [], some [(random, rng)]⟩

/-- What a state shows. -/
def view (s : St) : View := ⟨s.vEnv.map s.env, s.vLists.map s.lists, s.vEnts.map s.ents, s.vStage.map s.stage⟩

def vAddToGroup (cfg : Cfg) (w : View) (obj g : Nat) : View × Bool :=
  match w.ents with
  | some d =>
    if ((d.get? g).getD []).any (fun o => cfg.eqv obj o) then ({ w with ents := some (d.set g ((d.get? g).getD [])) }, false)
    else ({ w with ents := some (d.set g ((d.get? g).getD [] ++ [obj])) }, true)
  | none => ({ w with ents := some [(g, [obj])] }, true)

def vAddGroups (cfg : Cfg) (obj : Nat) : List Nat → View → View × Bool
  | [], w => (w, true)
  | g :: r, w =>
    if g ∈ cfg.skip then vAddGroups cfg obj r w
    else if (vAddToGroup cfg w obj g).2 then vAddGroups cfg obj r (vAddToGroup cfg w obj g).1
    else ((vAddToGroup cfg w obj g).1, false)

def vAddSpecial (cfg : Cfg) (w : View) (obj : Nat) : Special → View × Bool
  | .none => (w, true)
  | .actor =>
    match w.lists with
    | none => (w, false)
    | some l =>
      if l.actors.any (fun o => cfg.eqv obj o) then (w, true)
      else ({ w with lists := some { l with actors := l.actors ++ [obj] } }, true)
  | .monitored =>
    match w.lists with
    | none => (w, false)
    | some l =>
      if l.monitored.any (fun o => cfg.eqv obj o) then (w, true)
      else ({ w with lists := some { l with monitored := l.monitored ++ [obj] } }, true)

/-- An operation on what is visible. -/
def vstep (cfg : Cfg) (w : View) : Op → View × Out
  | .addVar x v | .setAttr x v =>
    match w.stage with
    | none => (w, .raised)
    | some d => if d.has x then (w, .raised) else ({ w with stage := some (d.set x v) }, .ok)
  | .getVar x =>
    match w.stage with
    | none => (w, .raised)
    | some d =>
      match d.get? x with
      | none => (w, .raised)
      | some v => (w, if x ∈ cfg.dictAttrs then .method else .value v)
  | .setItem x v =>
    match w.stage with
    | none => (w, .raised)
    | some d => ({ w with stage := some (d.set x v) }, .ok)
  | .delAttr x =>
    match w.stage with
    | none => (w, .raised)
    | some d => if d.has x then ({ w with stage := some (d.del x) }, .ok) else (w, .raised)
  | .make obj c =>
    match cfg.classes[c]? with
    | none => (w, .raised)
    | some k =>
      let r := vAddGroups cfg obj (cfg.ord ((groupsOf cfg.classes).getD c [])) w
      if r.2 then
        let q := vAddSpecial cfg r.1 obj k.special
        (q.1, if q.2 then .made obj c else .raised)
      else (r.1, .raised)
  | .record v =>
    match w.lists, w.env with
    | some l, some t => ({ w with lists := some { l with recorded := l.recorded ++ [(t, v)] } }, .ok)
    | _, _ => (w, .raised)
  | .runTo t =>
    match w.env with
    | none => (w, .raised)
    | some e => if e < t then ({ w with env := some t }, .ok) else (w, .raised)

mutual
/-- A block is run on a fresh view, which is then forgotten. -/
def eval (cfg : Cfg) (w : View) : Cmd → View × Bool × List Out
  | .op o => ((vstep cfg w o).1, (vstep cfg w o).2.failed, [(vstep cfg w o).2])
  | .block _ t rng body => (w, (evals cfg (fresh t rng) body).2.1, [.inner (evals cfg (fresh t rng) body).2.2])
  | .attempt body => ((evals cfg w body).1, false, (evals cfg w body).2.2)
def evals (cfg : Cfg) (w : View) : List Cmd → View × Bool × List Out
  | [] => (w, false, [])
  | c :: r =>
    if (eval cfg w c).2.1 then eval cfg w c
    else ((evals cfg (eval cfg w c).1 r).1, (evals cfg (eval cfg w c).1 r).2.1, (eval cfg w c).2.2 ++ (evals cfg (eval cfg w c).1 r).2.2)
end

mutual
/-- The context objects a command enters. -/
def uses : Cmd → List Nat
  | .op _ => []
  | .block c _ _ body => c :: usess body
  | .attempt body => usess body
def usess : List Cmd → List Nat
  | [] => []
  | c :: r => uses c ++ usess r
end

mutual
/-- No context object is entered inside its own block. -/
def Nested : Cmd → Prop
  | .op _ => True
  | .block c _ _ body => c ∉ usess body ∧ Nesteds body
  | .attempt body => Nesteds body
def Nesteds : List Cmd → Prop
  | [] => True
  | c :: r => Nested c ∧ Nesteds r
end

end Verif.Ctx
