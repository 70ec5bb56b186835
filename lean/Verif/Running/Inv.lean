import Verif.Running.Spec
import Mathlib.Data.List.Nodup
import Mathlib.Data.List.Range

/-! # The invariant -/

namespace Verif.Running

open Spec
open Verif.Network (Net Kind)

/-- The interruptions among the urgent events. -/
def pend : List Urgent → List (Nat × Nat × Nat)
  | [] => []
  | .interrupt p k c :: r => (k, p, c) :: pend r
  | _ :: r => pend r

/-- The starts of tasks among them. -/
def starts : List Urgent → List Nat
  | [] => []
  | .startTask p :: r => p :: starts r
  | _ :: r => starts r

theorem pend_append (a b : List Urgent) : pend (a ++ b) = pend a ++ pend b := by
  induction a with
  | nil => rfl
  | cons x a ih => cases x <;> simp [pend, ih]

theorem starts_append (a b : List Urgent) : starts (a ++ b) = starts a ++ starts b := by
  induction a with
  | nil => rfl
  | cons x a ih => cases x <;> simp [starts, ih]

theorem mem_starts {p : Nat} {u : List Urgent} : p ∈ starts u ↔ .startTask p ∈ u := by
  induction u with
  | nil => simp [starts]
  | cons x u ih => cases x <;> simp [starts, ih]

/-- Interrupts come after the start of their process. -/
def Ordered (phase : Nat → Phase) : List Urgent → Prop
  | [] => True
  | .interrupt p _ _ :: r => phase p ≠ .fresh ∧ Ordered phase r
  | .startTask p :: r => Ordered (upd phase p .live) r
  | _ :: r => Ordered phase r

/-- Who runs, by the state. -/
def whoOf (s : St) : Who :=
  match s.active with
  | .idle => .nobody
  | .task p => .task p
  | .handler p => .task p
  | .decision l =>
    match (s.loop l).pos with
    | .decides t => .decision (s.loop l).obj t
    | _ => .nobody

/-- What a phase says about the end of a task. -/
def ending : Phase → Option Action
  | .closing false => some .end_
  | .closing true => some .restart
  | _ => none

/-- Everything but what concerns the running loop. -/
structure Base (s : St) (tr : Trace) : Prop where
  bound : ∀ n, Spec.bound tr n = if s.q.nets.has n then some (s.obj n) else none
  objLt : ∀ n, s.q.nets.has n = true → s.obj n < s.nObj
  curProc : ∀ o, o < s.nObj → s.curProc o = (lastBegun tr o).map (·.2)
  begunLt : ∀ o t p, lastBegun tr o = some (t, p) → o < s.nObj ∧ p < s.nProc
  loopLt : ∀ l, l < s.nLoop → (s.loop l).obj < s.nObj
  waits : ∀ l, l < s.nLoop → ∀ p t, (s.loop l).pos = .waits p t → p < s.nProc
  fin : ∀ p, Finished tr p ↔ p < s.nProc ∧ s.phase p = .over
  made : ∀ p, p < s.nProc → made tr p = some ((s.proc p).kind, (s.proc p).inst)
  instLt : ∀ p, p < s.nProc → (s.proc p).inst < s.nInst
  closing : ∀ p, p < s.nProc → Spec.closing tr p = ending (s.phase p)
  noClosing : ∀ p, s.nProc ≤ p → Spec.closing tr p = none
  arrivals : issued tr = arrived tr ++ (pend s.urgent).map (fun x => (s.now, x))
  nInt : (issued tr).map (·.2.1) = List.range s.nInt
  intLt : ∀ p k c, .interrupt p k c ∈ s.urgent → p < s.nProc
  startLt : ∀ p, .startTask p ∈ s.urgent → p < s.nProc ∧ s.phase p = .fresh
  loopIn : ∀ l, .startLoop l ∈ s.urgent → l < s.nLoop
  freshIn : ∀ p, p < s.nProc → s.phase p = .fresh → .startTask p ∈ s.urgent
  startsNd : (starts s.urgent).Nodup
  ordered : Ordered s.phase s.urgent
  marks : ∀ i, i < s.nInst → s.inst i = mark tr i
  insts : ∀ i, i ∈ Spec.insts tr → i < s.nInst
  instsNd : (Spec.insts tr).Nodup
  procs : ∀ p, p ∈ Spec.procs tr ↔ p < s.nProc
  procsNd : (Spec.procs tr).Nodup
  begunAt : ∀ o p, Begun tr o p → p < s.nProc
  count : ∀ o, loops tr o = ((List.range s.nLoop).filter fun l => decide ((s.loop l).obj = o)).length

/-- What concerns who runs. -/
structure Inv (s : St) (tr : Trace) : Prop extends Base s tr where
  who : Spec.who tr = whoOf s
  actTask : ∀ p, s.active.proc = some p → p < s.nProc ∧ s.phase p ≠ .over ∧ s.phase p ≠ .fresh
  handler : ∀ p, s.active = .handler p → s.phase p = .live ∧ (s.proc p).kind ≠ .decision
  actDec : ∀ l, s.active = .decision l → l < s.nLoop ∧ ∃ t, (s.loop l).pos = .decides t
  dec : ∀ l, l < s.nLoop → ∀ t, (s.loop l).pos = .decides t → s.active = .decision l
  curName : ∀ o t p, lastBegun tr o = some (t, p) → s.curName o = some ((deciding tr o).getD t)
  holder : ∀ o t p, lastBegun tr o = some (t, p) → deciding tr o = none →
    ∃ l, l < s.nLoop ∧ (s.loop l).obj = o ∧ (s.loop l).pos = .waits p t
  own : ∀ o p, Begun tr o p → s.phase p = .over ∨ ∃ l t, l < s.nLoop ∧ (s.loop l).obj = o ∧ (s.loop l).pos = .waits p t

/-- The same while loop `l` is between two tasks. -/
structure Pre (s : St) (l : Nat) (tr : Trace) : Prop extends Base s tr where
  lt : l < s.nLoop
  idle : s.active = .idle
  dec : ∀ l', l' < s.nLoop → ∀ t, (s.loop l').pos = .decides t → l' = l
  curName : ∀ o t p, o ≠ (s.loop l).obj → lastBegun tr o = some (t, p) → s.curName o = some t
  holder : ∀ o t p, o ≠ (s.loop l).obj → lastBegun tr o = some (t, p) →
    ∃ l', l' < s.nLoop ∧ (s.loop l').obj = o ∧ (s.loop l').pos = .waits p t
  own : ∀ o p, Begun tr o p → s.phase p = .over ∨
    ∃ l' t, l' < s.nLoop ∧ l' ≠ l ∧ (s.loop l').obj = o ∧ (s.loop l').pos = .waits p t

theorem bound_op {op : Op} (hop : ∀ c, op ≠ .call c) (τ : Rat) (x : Out) (tr : Trace) (n : String) :
    Spec.bound ((τ, op, x) :: tr) n = Spec.bound tr n := by
  cases op with
  | call c => exact absurd rfl (hop c)
  | _ => rfl

theorem mark_op {op : Op} (hop : ∀ c, op ≠ .call c) (τ : Rat) (x : Out) (tr : Trace) (i : Nat)
    (h1 : ∀ o p t k j, x ≠ .began o p t k j) (h2 : ∀ o t j, x ≠ .decides o t j) :
    mark ((τ, op, x) :: tr) i = mark tr i := by
  cases op with
  | call c => exact absurd rfl (hop c)
  | _ =>
    cases x with
    | began o p t k j => exact absurd rfl (h1 o p t k j)
    | decides o t j => exact absurd rfl (h2 o t j)
    | _ => rfl

theorem mark_began {op : Op} (hop : ∀ c, op ≠ .call c) (τ : Rat) (o p : Nat) (t : String) (k : Kind) (j : Nat) (tr : Trace) (i : Nat) :
    mark ((τ, op, .began o p t k j) :: tr) i = if j = i then ⟨none, none, .end_⟩ else mark tr i := by
  cases op with
  | call c => exact absurd rfl (hop c)
  | _ => rfl

theorem mark_decides {op : Op} (hop : ∀ c, op ≠ .call c) (τ : Rat) (o : Nat) (t : String) (j : Nat) (tr : Trace) (i : Nat) :
    mark ((τ, op, .decides o t j) :: tr) i = if j = i then ⟨none, none, .end_⟩ else mark tr i := by
  cases op with
  | call c => exact absurd rfl (hop c)
  | _ => rfl

theorem who_op {op : Op} (hop : ∀ c, op ≠ .call c) (τ : Rat) (x : Out) (tr : Trace) (hx : x ≠ .impossible) :
    Spec.who ((τ, op, x) :: tr) = after x := by
  cases op with
  | call c => exact absurd rfl (hop c)
  | _ =>
    cases x with
    | impossible => exact absurd rfl hx
    | _ => rfl

theorem finished_cons (e : Rat × Op × Out) (tr : Trace) (p : Nat) :
    Finished (e :: tr) p ↔ e.2.2 = .finished p ∨ Finished tr p := by simp [Finished]

theorem begun_cons (e : Rat × Op × Out) (tr : Trace) (o p : Nat) :
    Begun (e :: tr) o p ↔ (∃ t k i, e.2.2 = .began o p t k i) ∨ Begun tr o p := by simp [Begun]

/-- An entry that tells nothing but who runs. -/
structure Dull0 (e : Rat × Op × Out) (tr : Trace) : Prop where
  bound : ∀ n, Spec.bound (e :: tr) n = Spec.bound tr n
  begun : ∀ o, lastBegun (e :: tr) o = lastBegun tr o
  fin : ∀ p, e.2.2 ≠ .finished p
  began : ∀ o p t k i, e.2.2 ≠ .began o p t k i
  made : ∀ p, Spec.made (e :: tr) p = Spec.made tr p
  closing : ∀ p, Spec.closing (e :: tr) p = Spec.closing tr p
  issued : Spec.issued (e :: tr) = Spec.issued tr
  arrived : Spec.arrived (e :: tr) = Spec.arrived tr
  mark : ∀ i, Spec.mark (e :: tr) i = Spec.mark tr i
  loops : ∀ o, Spec.loops (e :: tr) o = Spec.loops tr o
  procs : Spec.procs (e :: tr) = Spec.procs tr
  insts : Spec.insts (e :: tr) = Spec.insts tr

/-- An entry that tells nothing. -/
structure Dull (e : Rat × Op × Out) (tr : Trace) : Prop extends Dull0 e tr where
  who : Spec.who (e :: tr) = Spec.who tr

theorem Base.dull {s : St} {tr : Trace} {e : Rat × Op × Out} (h : Base s tr) (d : Dull0 e tr) : Base s (e :: tr) where
  bound n := by rw [d.bound]; exact h.bound n
  objLt := h.objLt
  curProc o ho := by rw [d.begun]; exact h.curProc o ho
  begunLt o t p hb := by rw [d.begun] at hb; exact h.begunLt o t p hb
  loopLt := h.loopLt
  waits := h.waits
  fin p := by rw [finished_cons, ← h.fin p]; exact ⟨fun x => x.resolve_left (d.fin p), .inr⟩
  made p hp := by rw [d.made]; exact h.made p hp
  instLt := h.instLt
  closing p hp := by rw [d.closing]; exact h.closing p hp
  noClosing p hp := by rw [d.closing]; exact h.noClosing p hp
  arrivals := by rw [d.issued, d.arrived]; exact h.arrivals
  nInt := by rw [d.issued]; exact h.nInt
  intLt := h.intLt
  startLt := h.startLt
  loopIn := h.loopIn
  freshIn := h.freshIn
  startsNd := h.startsNd
  ordered := h.ordered
  marks i hi := by rw [d.mark]; exact h.marks i hi
  insts i hi := by rw [d.insts] at hi; exact h.insts i hi
  instsNd := by rw [d.insts]; exact h.instsNd
  procs p := by rw [d.procs]; exact h.procs p
  procsNd := by rw [d.procs]; exact h.procsNd
  begunAt o p hb := by
    rw [begun_cons] at hb
    exact h.begunAt o p (hb.resolve_left (fun ⟨t, k, i, x⟩ => d.began o p t k i x))
  count o := by rw [d.loops]; exact h.count o

theorem Inv.dull {s : St} {tr : Trace} {e : Rat × Op × Out} (h : Inv s tr) (d : Dull e tr) : Inv s (e :: tr) where
  toBase := h.toBase.dull d.toDull0
  who := by rw [d.who]; exact h.who
  actTask := h.actTask
  handler := h.handler
  actDec := h.actDec
  dec := h.dec
  curName o t p hb := by
    rw [d.begun] at hb
    have : deciding (e :: tr) o = deciding tr o := by unfold deciding; rw [d.who]
    rw [this]; exact h.curName o t p hb
  holder o t p hb hd := by
    rw [d.begun] at hb
    have : deciding (e :: tr) o = deciding tr o := by unfold deciding; rw [d.who]
    rw [this] at hd; exact h.holder o t p hb hd
  own o p hb := by
    rw [begun_cons] at hb
    exact h.own o p (hb.resolve_left (fun ⟨t, k, i, x⟩ => d.began o p t k i x))

end Verif.Running
