import Verif.Proxy.Props

/-!
# A program with dictionaries and data objects, and what the code does otherwise
-/

namespace Verif.Proxy

open Spec (Declared AllFine Fine FineUse)

section check
variable {V : Type} [DecidableEq V]

/-- `Fine` computed. -/
def fineUse (C : Cfg V) (s : Spec.St V) (df : Def V) (o : Obj V) (op : POp V) : Bool :=
  match o, op with
  | .dict _, .setItem _ v => df.okVal v
  | .dict _, .setDefault _ v => df.okVal v
  | .data c _, .setAttr k _ => (C.cls c).fields.any fun f => decide (f.name = k) && f.own
  | .dict _, .eqProxy q => match s.arg (.proxy q) with | some (.dict _) => false | _ => true
  | _, _ => true

theorem fineUse_ok {C : Cfg V} {s : Spec.St V} {df : Def V} {o : Obj V} {op : POp V} (h : fineUse C s df o op = true) :
    FineUse C s df o op := by
  cases o with
  | dict d =>
    cases op <;> try exact trivial
    · exact h
    · exact h
    · intro e he
      simp only [fineUse, he] at h
      cases h
  | data c d =>
    cases op <;> try exact trivial
    simp only [fineUse, List.any_eq_true, Bool.and_eq_true, decide_eq_true_eq] at h
    exact h

def fine (C : Cfg V) (s : Spec.St V) : Op V → Bool
  | .build args => decide args.keys.Nodup &&
      (args.all fun p => match C.states.get? p.1 with
        | some df => decide (df.kind ≠ .data) || (match p.2 with
          | .mine h => (match s.hands[h]? with | some (.own (.data _ _)) => true | _ => false)
          | _ => false)
        | none => true) &&
      args.all fun p => args.all fun q => match p.2, q.2, C.states.get? p.1, C.states.get? q.1 with
        | .mine h, .mine h', some df, some dg => decide (h = h' → df.kind = .data → dg.kind = .data → p.1 = q.1)
        | _, _, _, _ => true
  | .clone i => match s.actors[i]? with
    | none => true
    | some b => C.states.all fun p => match b.obj p.1 with
      | some (.dict d) => d.all fun e => p.2.okVal e.2
      | some (.data c _) => (C.cls c).fields.all fun f => f.init
      | none => true
  | .use p op => match s.px[p]? with
    | none => true
    | some (a, n) => match s.val a n, C.states.get? n with
      | some o, some df => fineUse C s df o op
      | _, _ => true
  | _ => true

theorem fine_ok {C : Cfg V} {s : Spec.St V} {op : Op V} (h : fine C s op = true) : Fine C s op := by
  cases op with
  | build args =>
    simp only [fine, Bool.and_eq_true, decide_eq_true_eq, List.all_eq_true] at h
    obtain ⟨⟨h1, h2⟩, h3⟩ := h
    refine ⟨h1, ?_, ?_⟩
    · intro n x df hx hdf hk
      have := h2 (n, x) (Dict.mem_of_get? hx)
      simp only [hdf, hk, ne_eq, not_true, decide_false, Bool.false_or] at this
      cases x with
      | proxy p => cases this
      | mine h' =>
        simp only at this
        split at this
        · rename_i c d hh; exact ⟨h', c, d, rfl, hh⟩
        · cases this
    · intro n m h' df dg hn hdf hk hm hdg hk'
      have := h3 (n, .mine h') (Dict.mem_of_get? hn) (m, .mine h') (Dict.mem_of_get? hm)
      simp only [hdf, hdg, decide_eq_true_eq] at this
      exact this trivial hk hk'
  | clone i =>
    intro b n df hb hdf
    simp only [fine, hb, List.all_eq_true] at h
    have := h (n, df) (Dict.mem_of_get? hdf)
    simp only at this
    constructor
    · intro d hd
      simp only [hd, List.all_eq_true] at this
      exact this
    · intro c d hd
      simp only [hd, List.all_eq_true] at this
      exact this
  | use p op =>
    intro a n o df h1 h2 h3
    simp only [fine, h1, h2, h3] at h
    exact fineUse_ok h
  | newDict d => exact trivial
  | newData c vals => exact trivial
  | write h k v => exact trivial
  | read h k => exact trivial
  | get i n => exact trivial
  | advance dt => exact trivial

def allFine (C : Cfg V) : List (Op V) → Spec.St V → Bool
  | [], _ => true
  | op :: l, s => fine C s op && allFine C l (Spec.step C s op).1

theorem allFine_ok {C : Cfg V} : ∀ {ops : List (Op V)} {s : Spec.St V}, allFine C ops s = true → AllFine C ops s := by
  intro ops
  induction ops with
  | nil => intro s _; exact trivial
  | cons op l ih =>
    intro s h
    simp only [allFine, Bool.and_eq_true] at h
    exact ⟨fine_ok h.1, ih h.2⟩

end check

/-- A class with two fields, and one derived from it (its first field is inherited, its last one not in the constructor).
State 0 is a recorded dictionary with values that are not negative, states 1 and 2 are recorded data objects. -/
def exC : Cfg Int where
  cls := fun
    | 0 => ⟨[⟨"x", true, 0, true⟩, ⟨"y", true, 0, true⟩], false, fun _ v => decide (-100 ≤ v)⟩
    | _ => ⟨[⟨"x", true, 0, false⟩, ⟨"z", false, 7, true⟩], false, fun _ _ => true⟩
  states := [(0, ⟨.dict, true, fun v => decide (0 ≤ v), fun _ => false⟩),
    (1, ⟨.data, true, fun _ => true, fun c => decide (c = some 0)⟩),
    (2, ⟨.data, true, fun _ => true, fun c => decide (c = some 1)⟩)]

theorem exC_declared : Declared exC := by
  refine ⟨by decide, ?_⟩
  intro c
  match c with
  | 0 => decide
  | _ + 1 =>
    show ["x", "z"].Nodup
    decide

def exC2 : Cfg Int := { exC with states := exC.states.filter fun p => decide (p.1 < 2) }

theorem exC2_declared : Declared exC2 := ⟨by decide, exC_declared.2⟩

/-- An actor with a dictionary and a data object, written through proxies and through the program's own objects; a clone. -/
def exOps : List (Op Int) :=
  [.newDict [("a", 1)], .newData 0 (fun _ => 4), .build [(0, .mine 0), (1, .mine 1)], .get 0 0, .get 0 1,
   .use 0 (.setItem "b" 5), .advance 2, .use 1 (.setAttr "x" 7), .clone 0, .get 1 0, .get 1 1,
   .use 2 (.setItem "a" 9), .use 0 (.getItem "a"), .use 3 (.setAttr "x" 8), .use 1 (.getAttr "x"),
   .read 1 "x", .write 0 "a" 100, .use 0 (.getItem "a"), .use 0 .raw, .write 2 "c" 3, .use 0 .keys,
   .write 1 "y" 6, .use 1 (.getAttr "y"), .use 3 (.getAttr "y"), .get 0 0, .use 4 .items, .use 1 (.eqProxy 3),
   .use 0 (.eqMine 2)]

theorem exOps_fine : AllFine exC2 exOps (Spec.init 0) := allFine_ok (by decide +kernel)

/-- The program is a proper one for `c79_values_partial`, and this is what it is told. -/
example : (run exC2 exOps (init 0)).2 =
    [.handle 0, .handle 1, .actor 0, .proxy 0, .proxy 1, .done, .done, .done, .actor 1, .proxy 2, .proxy 3,
     .done, .val 1, .done, .val 7, .val 7, .done, .val 1, .handle 2, .done, .keys ["a", "b", "c"],
     .done, .val 6, .val 4, .proxy 4, .items [("a", 1), ("b", 5), ("c", 3)], .bool false, .bool true] := by
  rw [(c79_values_partial exC2 0 exOps exC2_declared exOps_fine).1]
  decide +kernel

/-- What is written to the object itself is not in the history; the history of the clone begins with the clone. -/
example : ((run exC2 exOps (init 0)).1.actors.map fun a => [a.hist 0 "a", a.hist 0 "b", a.hist 0 "c", a.hist 1 "x", a.hist 1 "y"]) =
    [[[(0, 1)], [(0, 5)], [], [(0, 4), (2, 7)], [(0, 4)]],
     [[(2, 1), (2, 9)], [(2, 5)], [], [(2, 7), (2, 8)], [(2, 4)]]] := by decide +kernel

/-- Proxies 0 and 2 are of the dictionaries of the actor and of its clone, and so are 0 and 4 of one of them. -/
example : ((run exC2 exOps (init 0)).1.px.map fun x => (x.actor, x.state, decide (x.df.kind = .dict))) =
    [(0, 0, true), (0, 1, false), (1, 0, true), (1, 1, false), (0, 0, true)] := by decide +kernel

end Verif.Proxy
