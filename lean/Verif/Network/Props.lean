import Verif.Network.Model
import Std.Data.String.ToNat
import Mathlib.Data.List.Nodup
import Mathlib.Data.List.Perm.Subperm

/-!
# C22–C25: task networks, queues, names and factories
-/

namespace Verif.Network

/-! ## Specification: one network seen alone

A registered description, a first-in first-out queue (absent until the network is first added), and the task being
executed. The next task is the head of the queue if there is one and otherwise the fallback. -/

structure Abs where
  net : Option Net
  q : Option (List String)
  loop : Option (Net × String)

/-- Execute `t`, having taken the head of the queue if there was one. -/
def Abs.exec (a : Abs) (net : Net) (q : List String) (t : String) : Abs × Out :=
  if (net.classes.get? t).isSome then ({ a with q := some q.tail, loop := some (net, t) }, .started t)
  else ({ a with q := some q.tail, loop := none }, .noClass t)

/-- What one operation on this network must do. -/
def Abs.step (a : Abs) : Op → Abs × Out
  | .addNet _ net => if a.net.isSome then (a, .raised) else ({ a with net := some net, q := some [] }, .done)
  | .delNet _ => if a.net.isSome then ({ a with net := none }, .done) else (a, .raised)
  | .clearQ _ => ({ a with q := some [] }, .done)
  | .setQ _ l =>
    match a.q with
    | some [] => ({ a with q := some l }, .done)
    | _ => (a, .raised)
  | .appendQ _ t =>
    match a.q with
    | some q => ({ a with q := some (q ++ [t]) }, .done)
    | none => (a, .raised)
  | .getNext _ =>
    match a.q with
    | some q => (a, .next q.head?)
    | none => (a, .raised)
  | .getQ _ =>
    match a.q with
    | some q => (a, .queue q)
    | none => (a, .raised)
  | .start _ i =>
    match a.loop, a.net, a.q with
    | some _, _, _ => (a, .impossible)
    | none, some net, some q =>
      match q.head?.or i with
      | some t => a.exec net q t
      | none => (a, .raised)
    | _, _, _ => (a, .raised)
  | .finish _ =>
    match a.loop, a.q with
    | some (net, t), some q =>
      if net.classes.get? t = some .terminal then (a, .impossible) else
      match net.links.get? t with
      | none => ({ a with loop := none }, .raised)
      | some l =>
        match q.head?.or l.default with
        | some u => a.exec net q u
        | none => ({ a with loop := none }, .raised)
    | _, _ => (a, .impossible)

/-- The network an operation is about. -/
def Op.net : Op → String
  | .addNet n _ => n
  | .delNet n => n
  | .setQ n _ => n
  | .clearQ n => n
  | .appendQ n _ => n
  | .getNext n => n
  | .getQ n => n
  | .start n _ => n
  | .finish n => n

/-- The specification of the actor: each network by itself. -/
def specRun (a : String → Abs) : List Op → List Out
  | [] => []
  | op :: ops => ((a op.net).step op).2 :: specRun (upd a op.net ((a op.net).step op).1) ops

def specInit : String → Abs := fun _ => ⟨none, none, none⟩

/-! ## Refinement -/

def abs (s : St) (n : String) : Abs := ⟨s.nets.get? n, s.queues.get? n, s.cur n⟩

def Inv (s : St) : Prop :=
  ∀ n, ((s.nets.get? n).isSome → (s.queues.get? n).isSome) ∧ ((s.cur n).isSome → (s.queues.get? n).isSome)

theorem has_eq {κ ν : Type} [DecidableEq κ] (d : Dict κ ν) (k : κ) : d.has k = (d.get? k).isSome := by
  cases h : d.get? k with
  | none =>
    have := Dict.get?_eq_none_iff.1 h
    cases h2 : d.has k with
    | false => rfl
    | true => exact absurd (Dict.has_iff.1 h2) this
  | some v =>
    have : k ∈ d.keys := List.mem_map_of_mem (f := Prod.fst) (Dict.mem_of_get? h)
    rw [Dict.has_iff.2 this]; rfl

theorem beginNext_head {s : St} {n : String} {q : List String} (h : s.queues.get? n = some q) {t : String}
    (ht : ∀ u, q.head? = some u → t = u) :
    beginNext s n t = ({ s with queues := (beginNext s n t).1.queues }, .done) ∧
      ∀ m, (beginNext s n t).1.queues.get? m = if m = n then some q.tail else s.queues.get? m := by
  cases q with
  | nil =>
    have : beginNext s n t = ({ s with queues := (s.queues.set n [t]).set n [] }, .done) := by
      simp [beginNext, h, setQ]
    rw [this]
    refine ⟨rfl, fun m => ?_⟩
    simp only [Dict.get?_set]
    by_cases hm : m = n
    · subst hm; simp
    · have : ¬ n = m := fun e => hm e.symm
      simp [hm, this]
  | cons u r =>
    have hu := ht u rfl
    subst hu
    have : beginNext s n t = ({ s with queues := s.queues.set n r }, .done) := by simp [beginNext, h]
    rw [this]
    refine ⟨rfl, fun m => ?_⟩
    simp only [Dict.get?_set]
    by_cases hm : m = n
    · subst hm; simp
    · have : ¬ n = m := fun e => hm e.symm
      simp [hm, this]

theorem begin_abs {s : St} {n : String} {q : List String} (h : s.queues.get? n = some q) {net : Net} {t : String}
    (ht : ∀ u, q.head? = some u → t = u) :
    (begin_ s n net t).2 = ((abs s n).exec net q t).2 ∧
      abs (begin_ s n net t).1 = upd (abs s) n ((abs s n).exec net q t).1 := by
  obtain ⟨h1, h2⟩ := beginNext_head h ht
  generalize (beginNext s n t).1.queues = qs at h1 h2
  unfold begin_
  rw [h1]
  cases hc : net.classes.get? t with
  | none =>
    refine ⟨by simp [Abs.exec, hc], ?_⟩
    funext m
    simp only [abs, upd, Abs.exec, hc, h2]
    by_cases hm : m = n <;> simp [hm]
  | some k =>
    refine ⟨by simp [Abs.exec, hc], ?_⟩
    funext m
    simp only [abs, upd, Abs.exec, hc, h2]
    by_cases hm : m = n <;> simp [hm]

theorem upd_self (s : St) (n : String) : upd (abs s) n (abs s n) = abs s := by
  funext m; unfold upd; split
  · rename_i h; rw [h]
  · rfl

theorem abs_ext {s s' : St} {n : String} {a : Abs} (h1 : s'.nets.get? n = a.net) (h2 : s'.queues.get? n = a.q)
    (h3 : s'.cur n = a.loop) (o1 : ∀ m, m ≠ n → s'.nets.get? m = s.nets.get? m)
    (o2 : ∀ m, m ≠ n → s'.queues.get? m = s.queues.get? m) (o3 : ∀ m, m ≠ n → s'.cur m = s.cur m) :
    abs s' = upd (abs s) n a := by
  funext m
  unfold abs upd
  by_cases hm : m = n
  · subst hm; simp [h1, h2, h3]
  · simp [hm, o1 m hm, o2 m hm, o3 m hm]

theorem step_same {s : St} {op : Op} {o : Out} (h1 : step s op = (s, o))
    (h2 : (abs s op.net).step op = (abs s op.net, o)) :
    (step s op).2 = ((abs s op.net).step op).2 ∧
      abs (step s op).1 = upd (abs s) op.net ((abs s op.net).step op).1 := by
  rw [h1, h2]; exact ⟨rfl, (upd_self s op.net).symm⟩

theorem step_chg {s s' : St} {op : Op} {o : Out} {a : Abs} (h1 : step s op = (s', o))
    (h2 : (abs s op.net).step op = (a, o)) (h3 : abs s' = upd (abs s) op.net a) :
    (step s op).2 = ((abs s op.net).step op).2 ∧
      abs (step s op).1 = upd (abs s) op.net ((abs s op.net).step op).1 := by
  rw [h1, h2]; exact ⟨rfl, h3⟩

theorem abs_queue {s : St} {n : String} {l : List String} :
    abs { s with queues := s.queues.set n l } = upd (abs s) n { abs s n with q := some l } := by
  refine abs_ext rfl (by simp) rfl (fun _ _ => rfl) ?_ (fun _ _ => rfl)
  intro m hm; exact Dict.get?_set_ne _ _ (Ne.symm hm)

theorem step_abs {s : St} (inv : Inv s) (op : Op) :
    (step s op).2 = ((abs s op.net).step op).2 ∧
      abs (step s op).1 = upd (abs s) op.net ((abs s op.net).step op).1 := by
  cases op with
  | addNet n net =>
    cases h : s.nets.get? n with
    | some x => exact step_same (o := .raised) (by simp [step, addNet, has_eq, h]) (by simp [Op.net, Abs.step, abs, h])
    | none =>
      refine step_chg (o := .done) (by simp [step, addNet, has_eq, h]; rfl)
        (by simp [Op.net, Abs.step, abs, h]; rfl) ?_
      refine abs_ext (by simp [Op.net]) (by simp [Op.net]) rfl ?_ ?_ (fun _ _ => rfl) <;> intro m hm <;>
        exact Dict.get?_set_ne _ _ (Ne.symm hm)
  | delNet n =>
    cases h : s.nets.get? n with
    | none => exact step_same (o := .raised) (by simp [step, delNet, has_eq, h]) (by simp [Op.net, Abs.step, abs, h])
    | some x =>
      refine step_chg (o := .done) (by simp [step, delNet, has_eq, h]; rfl)
        (by simp [Op.net, Abs.step, abs, h]; rfl) ?_
      refine abs_ext (by simp [Op.net]) rfl rfl ?_ (fun _ _ => rfl) (fun _ _ => rfl)
      intro m hm; exact Dict.get?_del_ne _ (Ne.symm hm)
  | clearQ n => exact step_chg (o := .done) rfl rfl abs_queue
  | setQ n l =>
    cases h : s.queues.get? n with
    | none => exact step_same (o := .raised) (by simp [step, setQ, h]) (by simp [Op.net, Abs.step, abs, h])
    | some q =>
      cases q with
      | cons u r => exact step_same (o := .raised) (by simp [step, setQ, h]) (by simp [Op.net, Abs.step, abs, h])
      | nil =>
        exact step_chg (o := .done) (by simp [step, setQ, h]; rfl) (by simp [Op.net, Abs.step, abs, h]) abs_queue
  | appendQ n t =>
    cases h : s.queues.get? n with
    | none => exact step_same (o := .raised) (by simp [step, appendQ, h]) (by simp [Op.net, Abs.step, abs, h])
    | some q =>
      exact step_chg (o := .done) (by simp [step, appendQ, h]; rfl) (by simp [Op.net, Abs.step, abs, h]) abs_queue
  | getNext n =>
    cases h : s.queues.get? n with
    | none => exact step_same (o := .raised) (by simp [step, getNext, h]) (by simp [Op.net, Abs.step, abs, h])
    | some q => exact step_same (o := .next q.head?) (by simp [step, getNext, h]) (by simp [Op.net, Abs.step, abs, h])
  | getQ n =>
    cases h : s.queues.get? n with
    | none => exact step_same (o := .raised) (by simp [step, h]) (by simp [Op.net, Abs.step, abs, h])
    | some q => exact step_same (o := .queue q) (by simp [step, h]) (by simp [Op.net, Abs.step, abs, h])
  | start n i =>
    cases hl : s.cur n with
    | some p => exact step_same (o := .impossible) (by simp [step, hl]) (by simp [Op.net, Abs.step, abs, hl])
    | none =>
      cases hn : s.nets.get? n with
      | none =>
        exact step_same (o := .raised) (by simp [step, hl, start, hn]) (by simp [Op.net, Abs.step, abs, hl, hn])
      | some net =>
        cases hq : s.queues.get? n with
        | none => have := (inv n).1 (by rw [hn]; rfl); rw [hq] at this; cases this
        | some q =>
          have go : ∀ t, q.head?.or i = some t → step s (.start n i) = begin_ s n net t →
              (step s (.start n i)).2 = ((abs s n).step (.start n i)).2 ∧
              abs (step s (.start n i)).1 = upd (abs s) n ((abs s n).step (.start n i)).1 := by
            intro t ht hs
            have : (abs s n).step (.start n i) = (abs s n).exec net q t := by simp [Abs.step, abs, hl, hn, hq, ht]
            rw [hs, this]
            refine begin_abs hq (fun v hv => ?_)
            rw [hv] at ht; simpa using ht.symm
          cases q with
          | cons u r => exact go u rfl (by simp [step, hl, start, hn, getNext, hq])
          | nil =>
            cases i with
            | none =>
              exact step_same (o := .raised) (by simp [step, hl, start, hn, getNext, hq])
                (by simp [Op.net, Abs.step, abs, hl, hn, hq])
            | some t => exact go t rfl (by simp [step, hl, start, hn, getNext, hq])
  | finish n =>
    cases hl : s.cur n with
    | none => exact step_same (o := .impossible) (by simp [step, finish, hl]) (by simp [Op.net, Abs.step, abs, hl])
    | some p =>
      obtain ⟨net, t⟩ := p
      cases hq : s.queues.get? n with
      | none => have := (inv n).2 (by rw [hl]; rfl); rw [hq] at this; cases this
      | some q =>
        by_cases ht : net.classes.get? t = some .terminal
        · exact step_same (o := .impossible) (by simp [step, finish, hl, ht])
            (by simp [Op.net, Abs.step, abs, hl, hq, ht])
        · have stop : abs { s with cur := upd s.cur n none } = upd (abs s) n { abs s n with loop := none } := by
            refine abs_ext rfl rfl (by simp [upd]) (fun _ _ => rfl) (fun _ _ => rfl) ?_
            intro m hm; simp [upd, hm]
          cases hk : net.links.get? t with
          | none =>
            exact step_chg (o := .raised) (by simp [step, finish, hl, ht, nextName, getNext, hq, hk])
              (by simp [Op.net, Abs.step, abs, hl, hq, ht, hk]) stop
          | some l =>
            have go : ∀ u, q.head?.or l.default = some u → step s (.finish n) = begin_ s n net u →
                (step s (.finish n)).2 = ((abs s n).step (.finish n)).2 ∧
                abs (step s (.finish n)).1 = upd (abs s) n ((abs s n).step (.finish n)).1 := by
              intro u hu hs
              have : (abs s n).step (.finish n) = (abs s n).exec net q u := by simp [Abs.step, abs, hl, hq, ht, hk, hu]
              rw [hs, this]
              refine begin_abs hq (fun v hv => ?_)
              rw [hv] at hu; simpa using hu.symm
            cases q with
            | cons u r => exact go u rfl (by simp [step, finish, hl, ht, nextName, getNext, hq, hk])
            | nil =>
              cases hd : l.default with
              | none =>
                exact step_chg (o := .raised) (by simp [step, finish, hl, ht, nextName, getNext, hq, hk, hd])
                  (by simp [Op.net, Abs.step, abs, hl, hq, ht, hk, hd]) stop
              | some u => exact go u (by simp [hd]) (by simp [step, finish, hl, ht, nextName, getNext, hq, hk, hd])

def AbsInv (a : Abs) : Prop := (a.net.isSome → a.q.isSome) ∧ (a.loop.isSome → a.q.isSome)

theorem Abs.inv_step {a : Abs} (h : AbsInv a) (op : Op) : AbsInv (a.step op).1 := by
  obtain ⟨net, q, loop⟩ := a
  unfold AbsInv at *
  cases op <;> simp only [Abs.step, Abs.exec] at * <;> repeat' split
  all_goals first | simpa using h | simp_all

theorem Inv.step {s : St} (inv : Inv s) (op : Op) : Inv (step s op).1 := by
  intro n
  have h := congrFun (step_abs inv op).2 n
  have h2 : AbsInv (abs (Network.step s op).1 n) := by
    rw [h]; unfold upd; split
    · exact Abs.inv_step (a := abs s op.net) (inv _) _
    · exact inv n
  exact h2

theorem Inv.run {s : St} (inv : Inv s) (ops : List Op) : Inv (run s ops).1 := by
  induction ops generalizing s with
  | nil => exact inv
  | cons op ops ih => exact ih (inv.step op)

theorem inv_init : Inv init := by intro n; simp [init]

theorem run_outs {s : St} (inv : Inv s) (ops : List Op) :
    ((run s ops).2.map Prod.snd) = specRun (abs s) ops := by
  induction ops generalizing s with
  | nil => rfl
  | cons op ops ih =>
    obtain ⟨h1, h2⟩ := step_abs inv op
    simp only [run, specRun, List.map_cons, h1, ih (inv.step op), h2]

/-- **C22, C23.** Whatever calls are made and however they are interleaved with the tasks of any number of networks,
every outcome (including which task a network executes next) is that of the specification, in which each network is a
first-in first-out queue of its own: the next task is the head of the queue, or else the initial task or the default
next task of the task just finished, and the loop stops with an error exactly when there is neither, when the
finished task has no links or when the task has no class; it does not go on after a terminal task. -/
theorem c22_execution_order (ops : List Op) : (run init ops).2.map Prod.snd = specRun specInit ops := by
  have : abs init = specInit := by funext n; rfl
  rw [run_outs inv_init, this]

def exNet : Net :=
  ⟨[("A", .normal), ("B", .decision), ("Z", .terminal)], [("A", ⟨some "B", ["B"]⟩), ("B", ⟨none, ["A", "Z"]⟩)]⟩

/-- The default, queue edits during a task, the terminal task. -/
example : (run init [.addNet "n" exNet, .start "n" (some "A"), .finish "n", .setQ "n" ["A", "B"], .appendQ "n" "Z",
    .finish "n", .finish "n", .finish "n", .finish "n"]).2.map Prod.snd =
    [.done, .started "A", .started "B", .done, .done, .started "A", .started "B", .started "Z", .impossible] := by
  decide +kernel

/-- Neither a queue nor a default. -/
example : (run init [.addNet "n" exNet, .start "n" (some "B"), .finish "n"]).2.map Prod.snd =
    [.done, .started "B", .raised] := by decide +kernel

/-! ## What was queued is executed once and in order -/

/-- A ledger kept from the outcomes only: what has been queued on `n`, what of it has been executed (or taken and
found to have no class), what is left. -/
structure Ledger where
  put : List String
  taken : List String
  left : List String

def Ledger.take (g : Ledger) (t : String) : Ledger :=
  if g.left = [] then g else { g with taken := g.taken ++ [t], left := g.left.tail }

def Ledger.next (n : String) (g : Ledger) (e : Op × Out) : Ledger :=
  if e.1.net ≠ n then g else
  match e with
  | (.setQ _ l, .done) => { g with put := g.put ++ l, left := l }
  | (.appendQ _ t, .done) => { g with put := g.put ++ [t], left := g.left ++ [t] }
  | (_, .started t) => g.take t
  | (_, .noClass t) => g.take t
  | _ => g

def ledger (n : String) (tr : List (Op × Out)) : Ledger := tr.foldl (Ledger.next n) ⟨[], [], []⟩

/-- No call empties the queue of `n` (deleting the network and adding one with its name again does). -/
def NoClear (n : String) (ops : List Op) : Prop := ∀ op ∈ ops, op ≠ .clearQ n ∧ op ≠ .delNet n

theorem run_append (s : St) (l1 l2 : List Op) :
    run s (l1 ++ l2) = ((run (run s l1).1 l2).1, (run s l1).2 ++ (run (run s l1).1 l2).2) := by
  induction l1 generalizing s with
  | nil => rfl
  | cons op l ih => simp only [List.cons_append, run, ih]

theorem getD_tail {α : Type} (l : List α) : l.head?.toList ++ l.tail = l := by cases l <;> rfl

def LedgerOk (s : St) (n : String) (g : Ledger) : Prop :=
  (s.queues.get? n).getD [] = g.left ∧ g.taken ++ g.left = g.put

theorem exec_out (a : Abs) (net : Net) (q : List String) (t : String) :
    ((a.exec net q t).2 = .started t ∨ (a.exec net q t).2 = .noClass t) ∧ (a.exec net q t).1.q = some q.tail := by
  unfold Abs.exec; split <;> simp

theorem ledger_take {g : Ledger} {q : List String} {t : String} {d : Option String} (h1 : q = g.left)
    (h2 : g.taken ++ g.left = g.put) (h : q.head?.or d = some t) :
    q.tail = (g.take t).left ∧ (g.take t).taken ++ (g.take t).left = (g.take t).put := by
  subst h1
  unfold Ledger.take
  split
  · rename_i h'; rw [h']; exact ⟨rfl, by rw [← h', h2]⟩
  · rename_i h'
    cases hl : g.left with
    | nil => exact absurd hl h'
    | cons u r =>
      rw [hl] at h; simp at h; subst h
      refine ⟨rfl, ?_⟩
      simp [← h2, hl]

theorem ledger_abs {a : Abs} (hi : a.net = none → a.q = none) {op : Op} {n : String} (hn : op.net = n)
    (h1 : op ≠ .clearQ n) (h2 : op ≠ .delNet n) {g : Ledger} (hq : a.q.getD [] = g.left)
    (hp : g.taken ++ g.left = g.put) :
    (a.step op).1.q.getD [] = (g.next n (op, (a.step op).2)).left ∧
    (g.next n (op, (a.step op).2)).taken ++ (g.next n (op, (a.step op).2)).left = (g.next n (op, (a.step op).2)).put ∧
    ((a.step op).1.net = none → (a.step op).1.q = none) := by
  subst hn
  have key : ∀ net q t d, a.q = some q → q.head?.or d = some t → (a.net ≠ none) → a.step op = a.exec net q t →
      (a.step op).1.q.getD [] = (g.next op.net (op, (a.step op).2)).left ∧
      (g.next op.net (op, (a.step op).2)).taken ++ (g.next op.net (op, (a.step op).2)).left =
        (g.next op.net (op, (a.step op).2)).put ∧
      ((a.step op).1.net = none → (a.step op).1.q = none) := by
    intro net q t d hq' ht hnn he
    rw [hq'] at hq
    obtain ⟨k1, k2⟩ := ledger_take hq hp ht
    obtain ⟨e1, e2⟩ := exec_out a net q t
    have e3 : (a.exec net q t).1.net = a.net := by unfold Abs.exec; split <;> rfl
    rw [he, e2, e3]
    have : g.next op.net (op, (a.exec net q t).2) = g.take t := by
      unfold Ledger.next
      rcases e1 with e | e <;> rw [e] <;> simp
    rw [this]
    exact ⟨k1, k2, fun h => absurd h hnn⟩
  have same : ∀ o, a.step op = (a, o) → (∀ t, o ≠ .started t) → (∀ t, o ≠ .noClass t) → o ≠ .done →
      (a.step op).1.q.getD [] = (g.next op.net (op, (a.step op).2)).left ∧
      (g.next op.net (op, (a.step op).2)).taken ++ (g.next op.net (op, (a.step op).2)).left =
        (g.next op.net (op, (a.step op).2)).put ∧
      ((a.step op).1.net = none → (a.step op).1.q = none) := by
    intro o he o1 o2 o3
    rw [he]
    have : g.next op.net (op, o) = g := by
      unfold Ledger.next
      rw [if_neg (by simp)]
      split <;> simp_all
    rw [this]
    exact ⟨hq, hp, hi⟩
  obtain ⟨net, q, loop⟩ := a
  cases op with
  | addNet n net' =>
    cases net with
    | some x => exact same .raised rfl (by simp) (by simp) (by simp)
    | none =>
      have hq' := hi rfl
      simp only at hq'
      subst hq'
      have e : Ledger.next n g (.addNet n net', .done) = g := by simp [Ledger.next, Op.net]
      have e2 : Abs.step ⟨none, none, loop⟩ (.addNet n net') = (⟨some net', some [], loop⟩, .done) := rfl
      rw [e2]
      simp only [Op.net, e]
      exact ⟨hq, hp, fun h => by simp at h⟩
  | delNet n => exact absurd rfl h2
  | clearQ n => exact absurd rfl h1
  | setQ n l =>
    cases q with
    | none => exact same .raised rfl (by simp) (by simp) (by simp)
    | some q =>
      cases q with
      | cons u r => exact same .raised rfl (by simp) (by simp) (by simp)
      | nil =>
        simp only [Option.getD_some] at hq
        refine ⟨by simp [Abs.step, Ledger.next, Op.net], ?_, fun h => ?_⟩
        · simp [Abs.step, Ledger.next, Op.net, ← hp, ← hq]
        · exact absurd (hi h) (by simp)
  | appendQ n t =>
    cases q with
    | none => exact same .raised rfl (by simp) (by simp) (by simp)
    | some q =>
      simp only [Option.getD_some] at hq
      refine ⟨by simp [Abs.step, Ledger.next, Op.net, hq], ?_, fun h => ?_⟩
      · simp [Abs.step, Ledger.next, Op.net, ← hp]
      · exact absurd (hi h) (by simp)
  | getNext n =>
    cases q with
    | none => exact same .raised rfl (by simp) (by simp) (by simp)
    | some q => exact same (.next q.head?) rfl (by simp) (by simp) (by simp)
  | getQ n =>
    cases q with
    | none => exact same .raised rfl (by simp) (by simp) (by simp)
    | some q => exact same (.queue q) rfl (by simp) (by simp) (by simp)
  | start n i =>
    cases loop with
    | some _ => exact same .impossible rfl (by simp) (by simp) (by simp)
    | none =>
      cases net with
      | none => exact same .raised rfl (by simp) (by simp) (by simp)
      | some net =>
        cases q with
        | none => exact same .raised rfl (by simp) (by simp) (by simp)
        | some q =>
          cases hc : q.head?.or i with
          | none => exact same .raised (by simp [Abs.step, hc]) (by simp) (by simp) (by simp)
          | some t => exact key net q t i rfl hc (by simp) (by simp [Abs.step, hc])
  | finish n =>
    cases loop with
    | none => exact same .impossible rfl (by simp) (by simp) (by simp)
    | some p =>
      obtain ⟨net', t⟩ := p
      cases q with
      | none => exact same .impossible rfl (by simp) (by simp) (by simp)
      | some q =>
        have hnn : net ≠ none := fun h => absurd (hi h) (by simp)
        by_cases ht : net'.classes.get? t = some .terminal
        · exact same .impossible (by simp [Abs.step, ht]) (by simp) (by simp) (by simp)
        · cases hk : net'.links.get? t with
          | none =>
            have e : Abs.step ⟨net, some q, some (net', t)⟩ (.finish n) = (⟨net, some q, none⟩, .raised) := by
              simp [Abs.step, ht, hk]
            have e3 : Ledger.next n g (.finish n, .raised) = g := by simp [Ledger.next, Op.net]
            rw [e]
            simp only [Op.net, e3]
            exact ⟨hq, hp, fun h => absurd h hnn⟩
          | some l =>
            cases hc : q.head?.or l.default with
            | none =>
              have e : Abs.step ⟨net, some q, some (net', t)⟩ (.finish n) = (⟨net, some q, none⟩, .raised) := by
                simp [Abs.step, ht, hk, hc]
              have e3 : Ledger.next n g (.finish n, .raised) = g := by simp [Ledger.next, Op.net]
              rw [e]
              simp only [Op.net, e3]
              exact ⟨hq, hp, fun h => absurd h hnn⟩
            | some u => exact key net' q u l.default rfl hc hnn (by simp [Abs.step, ht, hk, hc])

theorem ledger_run {n : String} (ops : List Op) (nc : NoClear n ops) {s : St} (inv : Inv s) {g : Ledger}
    (hq : (s.queues.get? n).getD [] = g.left) (hp : g.taken ++ g.left = g.put)
    (hi : s.nets.get? n = none → s.queues.get? n = none) :
    ((run s ops).1.queues.get? n).getD [] = ((run s ops).2.foldl (Ledger.next n) g).left ∧
    ((run s ops).2.foldl (Ledger.next n) g).taken ++ ((run s ops).2.foldl (Ledger.next n) g).left =
      ((run s ops).2.foldl (Ledger.next n) g).put := by
  induction ops generalizing s g with
  | nil => exact ⟨hq, hp⟩
  | cons op ops ih =>
    have nc' := nc op (by simp)
    have nc2 : NoClear n ops := fun o ho => nc o (by simp [ho])
    obtain ⟨h1, h2⟩ := step_abs inv op
    simp only [run, List.foldl_cons]
    by_cases hn : op.net = n
    · obtain ⟨k1, k2, k3⟩ := ledger_abs (a := abs s n) hi hn nc'.1 nc'.2 hq hp
      have e : abs (step s op).1 n = ((abs s n).step op).1 := by rw [h2, hn]; simp [upd]
      rw [hn] at h1
      rw [h1]
      exact ih nc2 (inv.step op) (by rw [← k1, ← e]; rfl) k2 (by
        intro h
        have : (abs (step s op).1 n).net = none := h
        rw [e] at this
        have := k3 this
        rw [← e] at this
        exact this)
    · have e : abs (step s op).1 n = abs s n := by
        rw [h2]; unfold upd; rw [if_neg (fun x => hn x.symm)]
      have e1 : (step s op).1.queues.get? n = s.queues.get? n := congrArg Abs.q e
      have e2 : (step s op).1.nets.get? n = s.nets.get? n := congrArg Abs.net e
      have : Ledger.next n g (op, (step s op).2) = g := by unfold Ledger.next; simp [hn]
      rw [this]
      exact ih nc2 (inv.step op) (by rw [e1]; exact hq) hp (by rw [e1, e2]; exact hi)

/-- **C22 (each queued task once, in order).** As long as nothing empties the queue, the tasks taken from it followed
by the tasks still in it are exactly the tasks that were queued, in the order in which they were queued. -/
theorem c22_consumed_once_in_order (n : String) (ops : List Op) (nc : NoClear n ops) :
    (ledger n (run init ops).2).taken ++ ((run init ops).1.queues.get? n).getD [] = (ledger n (run init ops).2).put := by
  obtain ⟨h1, h2⟩ := ledger_run (n := n) ops nc (s := init) inv_init (g := ⟨[], [], []⟩) rfl rfl (fun _ => rfl)
  rw [h1]; exact h2

example : NoClear "n" [.addNet "n" exNet, .start "n" (some "A"), .setQ "n" ["B", "A"], .clearQ "m", .finish "n",
    .appendQ "n" "Z"] ∧
    (ledger "n" (run init [.addNet "n" exNet, .start "n" (some "A"), .setQ "n" ["B", "A"], .clearQ "m", .finish "n",
      .appendQ "n" "Z"]).2).taken = ["B"] := by
  refine ⟨?_, by decide +kernel⟩
  intro op h
  simp at h
  rcases h with rfl | rfl | rfl | rfl | rfl | rfl <;> simp

/-! ## C23 -/

/-- **C23.** A queue is set only when nothing is pending; a refused call changes nothing; an accepted one queues
exactly the given list. -/
theorem c23_set_queue (s : St) (n : String) (l : List String) :
    ((step s (.setQ n l)).2 = .done ↔ s.queues.get? n = some []) ∧
    ((step s (.setQ n l)).2 ≠ .done → (step s (.setQ n l)).2 = .raised ∧ (step s (.setQ n l)).1 = s) ∧
    ((step s (.setQ n l)).2 = .done → (step (step s (.setQ n l)).1 (.getQ n)).2 = .queue l) := by
  cases h : s.queues.get? n with
  | none => simp [step, setQ, h]
  | some q => cases q <;> simp [step, setQ, h]

example : ∃ s : St, s.queues.get? "n" = some [] := ⟨(run init [.addNet "n" exNet]).1, by decide +kernel⟩

/-- **C23.** Clearing always succeeds and leaves an empty queue, which can be set again. -/
theorem c23_clear (s : St) (n : String) (l : List String) :
    (step s (.clearQ n)).2 = .done ∧ (step (step s (.clearQ n)).1 (.getQ n)).2 = .queue [] ∧
    (step (step s (.clearQ n)).1 (.getNext n)).2 = .next none ∧
    (step (step s (.clearQ n)).1 (.setQ n l)).2 = .done := by
  simp [step, clearQ, getNext, setQ]

/-- **C23.** A network is added exactly when no network of the actor has its name; a refused call changes nothing, an
accepted one starts with an empty queue. -/
theorem c23_add_network (s : St) (n : String) (net : Net) :
    ((step s (.addNet n net)).2 = .done ↔ s.nets.get? n = none) ∧
    ((step s (.addNet n net)).2 ≠ .done → (step s (.addNet n net)).2 = .raised ∧ (step s (.addNet n net)).1 = s) ∧
    ((step s (.addNet n net)).2 = .done → (step s (.addNet n net)).1.nets.get? n = some net ∧
      (step (step s (.addNet n net)).1 (.getQ n)).2 = .queue []) := by
  cases h : s.nets.get? n <;> simp [step, addNet, has_eq, h]

/-- **C23.** No operation on one network (including running its tasks) changes the queue, the description or the
running task of another. -/
theorem c23_other_networks_untouched {ops : List Op} {op : Op} {n : String} (h : op.net ≠ n) :
    let s := (run init ops).1
    let s' := (step s op).1
    s'.queues.get? n = s.queues.get? n ∧ s'.nets.get? n = s.nets.get? n ∧ s'.cur n = s.cur n := by
  have h2 := congrFun (step_abs (inv_init.run ops) op).2 n
  unfold upd at h2
  rw [if_neg (fun e => h e.symm)] at h2
  exact ⟨congrArg Abs.q h2, congrArg Abs.net h2, congrArg Abs.loop h2⟩

example : (Op.finish "m").net ≠ "n" := by decide

/-- **C23.** Looking at a queue changes nothing. -/
theorem c23_queries_pure (s : St) (n : String) : (step s (.getNext n)).1 = s ∧ (step s (.getQ n)).1 = s := ⟨rfl, rfl⟩

/-! ## C24 -/

/-- The `k`-th numbered name. -/
def numbered (base : String) (k : Nat) : String := base ++ "_" ++ toString k

theorem numbered_inj {base : String} {i j : Nat} (h : numbered base i = numbered base j) : i = j := by
  unfold numbered at h
  have h1 := congrArg String.toList h
  simp only [String.toList_append, List.append_assoc, List.append_cancel_left_eq] at h1
  have h2 := String.ext_iff.2 h1
  exact Nat.repr_injective h2

theorem suggestLoop_found (s : St) (base : String) (k : Nat) (free : ¬ s.nets.has (numbered base (k + 1))) :
    ∀ (d i fuel : Nat), i + d = k → d < fuel → (∀ j, i < j → j ≤ k → s.nets.has (numbered base j)) →
      suggestLoop s base fuel i = some (numbered base (k + 1)) := by
  intro d
  induction d with
  | zero =>
    intro i fuel hi hf _
    obtain ⟨fuel, rfl⟩ : ∃ f, fuel = f + 1 := ⟨fuel - 1, by omega⟩
    have : i = k := by omega
    subst this
    unfold suggestLoop
    have hn : base ++ "_" ++ Nat.repr (i + 1) = numbered base (i + 1) := rfl
    rw [hn]
    simp only
    rw [if_neg (by simpa using free)]
  | succ d ih =>
    intro i fuel hi hf hu
    obtain ⟨fuel, rfl⟩ : ∃ f, fuel = f + 1 := ⟨fuel - 1, by omega⟩
    unfold suggestLoop
    have hn : base ++ "_" ++ Nat.repr (i + 1) = numbered base (i + 1) := rfl
    rw [hn]
    simp only
    rw [if_pos (hu (i + 1) (by omega) (by omega))]
    exact ih (i + 1) fuel (by omega) (by omega) (fun j h1 h2 => hu j (by omega) h2)

theorem exists_free (s : St) (base : String) : ∃ k, ¬ s.nets.has (numbered base (k + 1)) := by
  by_contra hc
  have hc : ∀ k, s.nets.has (numbered base (k + 1)) = true := by
    intro k
    cases h : s.nets.has (numbered base (k + 1)) with
    | true => rfl
    | false => exact absurd ⟨k, by simp [h]⟩ hc
  have h1 : ((List.range (s.nets.keys.length + 1)).map (fun k => numbered base (k + 1))).Nodup := by
    refine List.Nodup.map ?_ List.nodup_range
    intro i j hij
    have := numbered_inj hij
    omega
  have h2 : ((List.range (s.nets.keys.length + 1)).map (fun k => numbered base (k + 1))) ⊆ s.nets.keys := by
    intro x hx
    obtain ⟨k, _, rfl⟩ := List.mem_map.1 hx
    exact Dict.has_iff.1 (hc k)
  have := (List.subperm_of_subset h1 h2).length_le
  simp at this; omega

/-- **C24.** Whatever networks the actor has, the search for a name ends, with a name no network of the actor has: the
factory's own name if that is free, and otherwise the first free numbered name. (The loop of the code is a bounded one
in the model; the theorem says that some bound is enough and that a larger one gives the same answer.) -/
theorem c24_suggested_name_is_free (s : St) (base : String) :
    ∃ (nm : String) (bound : Nat), (∀ fuel, bound ≤ fuel → suggest s base fuel = some nm) ∧
      nm ∉ s.nets.keys ∧ (base ∉ s.nets.keys → nm = base) ∧
      (base ∈ s.nets.keys → ∃ k, nm = numbered base (k + 1) ∧ ∀ j < k, numbered base (j + 1) ∈ s.nets.keys) := by
  by_cases hb : base ∈ s.nets.keys
  swap
  · have hb' : s.nets.has base = false := by
      cases h : s.nets.has base with
      | false => rfl
      | true => exact absurd (Dict.has_iff.1 h) hb
    exact ⟨base, 0, fun fuel _ => by simp [suggest, hb'], hb, fun _ => rfl, fun h => absurd h hb⟩
  · have hb' := Dict.has_iff.2 hb
    obtain ⟨k, hk, hmin⟩ : ∃ k, (¬ s.nets.has (numbered base (k + 1))) ∧
        ∀ j < k, s.nets.has (numbered base (j + 1)) := by
      obtain ⟨k0, hk0⟩ := exists_free s base
      have : ∀ n k, k ≤ n → (¬ s.nets.has (numbered base (k + 1))) → ∃ k, (¬ s.nets.has (numbered base (k + 1))) ∧
          ∀ j < k, s.nets.has (numbered base (j + 1)) := by
        intro n
        induction n with
        | zero => intro k hk hf; exact ⟨k, hf, fun j hj => by omega⟩
        | succ n ih =>
          intro k hk hf
          by_cases hall : ∀ j < k, s.nets.has (numbered base (j + 1))
          · exact ⟨k, hf, hall⟩
          · obtain ⟨j, hj⟩ : ∃ j, ¬ (j < k → s.nets.has (numbered base (j + 1)) = true) := by
              by_contra hc
              refine hall (fun j => ?_)
              by_contra hn
              exact hc ⟨j, hn⟩
            have hj1 : j < k := by
              by_contra hn
              exact hj (fun h => absurd h hn)
            exact ih j (by omega) (fun h => hj (fun _ => h))
      exact this k0 k0 (Nat.le_refl _) hk0
    refine ⟨numbered base (k + 1), k + 1, fun fuel hf => ?_, ?_, fun h => absurd hb h, fun _ => ⟨k, rfl, ?_⟩⟩
    · unfold suggest
      rw [if_neg (by simp [hb'])]
      refine suggestLoop_found s base k hk k 0 fuel (by omega) (by omega) (fun j h1 h2 => ?_)
      have := hmin (j - 1) (by omega)
      rwa [show j - 1 + 1 = j by omega] at this
    · intro hmem; exact hk (Dict.has_iff.2 hmem)
    · intro j hj; exact Dict.has_iff.1 (hmin j hj)

/-- Adversarially numbered names. -/
example : suggest (run init [.addNet "n" exNet, .addNet "n_1" exNet, .addNet "n_3" exNet]).1 "n" 10 = some "n_2" := by
  decide +kernel

/-! ## C25 -/

/-- The names of the tasks executed by an undisturbed network: the starting task, then `k` completions. -/
def executed (net : Net) (first : String) (k : Nat) : List Out :=
  ((run init (.addNet "net" net :: .start "net" (some first) :: List.replicate k (.finish "net"))).2.map Prod.snd).tail

/-- Outcomes of `k` completions of an undisturbed loop whose current task is `t`. -/
def follow (net : Net) : Nat → String → List Out
  | 0, _ => []
  | k + 1, t =>
    if net.classes.get? t = some .terminal then .impossible :: follow net k t else
    match (net.links.get? t).bind Links.default with
    | none => .raised :: List.replicate k .impossible
    | some u => if (net.classes.get? u).isSome then .started u :: follow net k u else
        .noClass u :: List.replicate k .impossible

theorem specRun_stopped (k : Nat) (a : String → Abs) (h : (a "net").loop = none) :
    specRun a (List.replicate k (.finish "net")) = List.replicate k .impossible := by
  induction k generalizing a with
  | zero => rfl
  | succ k ih =>
    have e : (a "net").step (.finish "net") = (a "net", .impossible) := by simp [Abs.step, h]
    simp only [List.replicate_succ, specRun, Op.net, e]
    rw [ih _ (by simp [upd, h])]

theorem specRun_follow (net : Net) (k : Nat) (t : String) (a : String → Abs) (h : (a "net").loop = some (net, t))
    (hq : (a "net").q = some []) : specRun a (List.replicate k (.finish "net")) = follow net k t := by
  induction k generalizing t a with
  | zero => rfl
  | succ k ih =>
    unfold follow
    by_cases ht : net.classes.get? t = some .terminal
    · have e : (a "net").step (.finish "net") = (a "net", .impossible) := by simp [Abs.step, h, hq, ht]
      simp only [List.replicate_succ, specRun, Op.net, e, if_pos ht]
      rw [ih t _ (by simp [upd, h]) (by simp [upd, hq])]
    · rw [if_neg ht]
      cases hk : net.links.get? t with
      | none =>
        have e : (a "net").step (.finish "net") = ({ a "net" with loop := none }, .raised) := by
          simp [Abs.step, h, hq, ht, hk]
        simp only [List.replicate_succ, specRun, Op.net, e]
        rw [specRun_stopped _ _ (by simp [upd])]; rfl
      | some l =>
        cases hd : l.default with
        | none =>
          have e : (a "net").step (.finish "net") = ({ a "net" with loop := none }, .raised) := by
            simp [Abs.step, h, hq, ht, hk, hd]
          simp only [List.replicate_succ, specRun, Op.net, e]
          rw [specRun_stopped _ _ (by simp [upd])]; simp [hd]
        | some u =>
          have e : (a "net").step (.finish "net") = (a "net").exec net [] u := by
            simp [Abs.step, h, hq, ht, hk, hd]
          simp only [List.replicate_succ, specRun, Op.net, e, Option.bind_some, hd]
          unfold Abs.exec
          split
          · simp only [List.tail_nil]
            rw [ih u _ (by simp [upd]) (by simp [upd])]
          · simp only [List.tail_nil]
            rw [specRun_stopped _ _ (by simp [upd])]

theorem executed_eq (net : Net) (first : String) (k : Nat) (hc : (net.classes.get? first).isSome) :
    executed net first k = .started first :: follow net k first := by
  unfold executed
  rw [c22_execution_order]
  have e1 : (specInit "net").step (.addNet "net" net) = (⟨some net, some [], none⟩, .done) := rfl
  have e2 : Abs.step ⟨some net, some [], none⟩ (.start "net" (some first)) =
      (⟨some net, some [], some (net, first)⟩, .started first) := by simp [Abs.step, Abs.exec, hc]
  simp only [specRun, Op.net, e1, List.tail_cons]
  have e3 : upd specInit "net" ⟨some net, some [], none⟩ "net" = ⟨some net, some [], none⟩ := by simp [upd]
  rw [e3, e2]
  simp only
  rw [specRun_follow net k first _ (by simp [upd]) (by simp [upd])]

/-- **C25.** A single looping network executes its task for ever. -/
theorem c25_single_looping (t : String) (kd : Kind) (hk : kd ≠ .terminal) (k : Nat) :
    executed (singleLooping t kd) t k = List.replicate (k + 1) (.started t) := by
  rw [executed_eq _ _ _ (by simp [singleLooping, Dict.get?_cons]), List.replicate_succ]
  congr 1
  induction k with
  | zero => rfl
  | succ k ih => simp [follow, singleLooping, Dict.get?_cons, hk, List.replicate_succ] at ih ⊢; exact ih

theorem follow_terminal (net : Net) (t : String) (h : net.classes.get? t = some .terminal) (k : Nat) :
    follow net k t = List.replicate k .impossible := by
  induction k with
  | zero => rfl
  | succ k ih => simp [follow, h, ih, List.replicate_succ]

theorem ne_append {a b : String} (hb : b ≠ "") : a ≠ a ++ b := by
  intro h
  have := congrArg String.length h
  simp [String.length_append] at this
  exact hb this

/-- **C25.** A single terminating network executes its task once and stays in the terminal task. -/
theorem c25_single_terminating (t : String) (kd : Kind) (hk : kd ≠ .terminal) (k : Nat) :
    executed (singleTerminating t kd) t (k + 1) =
      [.started t, .started (t ++ "_FINAL")] ++ List.replicate k .impossible := by
  have hne : t ≠ t ++ "_FINAL" := ne_append (by decide)
  have c1 : (singleTerminating t kd).classes.get? t = some kd := by
    simp only [singleTerminating]; rw [Dict.get?_set_ne _ _ hne.symm]; simp [Dict.get?_cons]
  have c2 : (singleTerminating t kd).classes.get? (t ++ "_FINAL") = some .terminal := by simp [singleTerminating]
  have l1 : (singleTerminating t kd).links.get? t = some ⟨some (t ++ "_FINAL"), [t ++ "_FINAL"]⟩ := by
    simp [singleTerminating, Dict.get?_cons]
  rw [executed_eq _ _ _ (by simp [c1])]
  simp [follow, c1, c2, l1, hk, follow_terminal _ _ c2]

/-- A chain: each task's default is the next one. -/
def Chained (net : Net) : List String → Prop
  | [] => True
  | [_] => True
  | t :: u :: r => ((net.links.get? t).bind Links.default = some u ∧ (∃ k, net.classes.get? t = some k ∧ k ≠ .terminal)
      ∧ (net.classes.get? u).isSome) ∧ Chained net (u :: r)

theorem follow_chain (net : Net) (l : List String) (last : String) (t : String) (h : Chained net (t :: l ++ [last]))
    (k : Nat) : follow net (l.length + 1 + k) t = (l ++ [last]).map Out.started ++ follow net k last := by
  induction l generalizing t with
  | nil =>
    obtain ⟨⟨h1, ⟨kd, h2, h3⟩, h4⟩, _⟩ := h
    simp only [List.length_nil, Nat.zero_add]
    rw [Nat.add_comm 1 k]
    simp [follow, h1, h2, h3, h4]
  | cons u r ih =>
    obtain ⟨⟨h1, ⟨kd, h2, h3⟩, h4⟩, h5⟩ := h
    have : (u :: r).length + 1 + k = (r.length + 1 + k) + 1 := by simp; omega
    rw [this]
    simp only [follow, h2, h1]
    rw [if_neg (by simpa using h3)]
    simp only [h4, if_true, List.cons_append, List.map_cons]
    rw [ih u h5]

theorem orderedTermLoop_get (name : String) : ∀ (l : List (String × Kind)) (net : Net) (t : String),
    t ∉ l.map Prod.fst → t ≠ name ++ "_TERMINATING" →
    (orderedTermLoop name l net).classes.get? t = net.classes.get? t ∧
    (orderedTermLoop name l net).links.get? t = net.links.get? t
  | [], net, t, _, _ => ⟨rfl, rfl⟩
  | [(u, k)], net, t, h, ht => by
    have hu : u ≠ t := fun e => h (by simp [e])
    simp only [orderedTermLoop]
    rw [Dict.get?_set_ne _ _ (Ne.symm ht), Dict.get?_set_ne _ _ hu, Dict.get?_set_ne _ _ hu]
    exact ⟨rfl, rfl⟩
  | (u, k) :: (v, k') :: r, net, t, h, ht => by
    have hu : u ≠ t := fun e => h (by simp [e])
    simp only [orderedTermLoop]
    obtain ⟨h1, h2⟩ := orderedTermLoop_get name ((v, k') :: r) ⟨net.classes.set u k, net.links.set u ⟨some v, [v]⟩⟩ t
      (fun hm => h (by simp at hm ⊢; exact Or.inr hm)) ht
    rw [h1, h2]
    simp only
    rw [Dict.get?_set_ne _ _ hu, Dict.get?_set_ne _ _ hu]
    exact ⟨rfl, rfl⟩

theorem orderedTermLoop_term (name : String) : ∀ (l : List (String × Kind)) (net : Net), l ≠ [] →
    name ++ "_TERMINATING" ∉ l.map Prod.fst →
    (orderedTermLoop name l net).classes.get? (name ++ "_TERMINATING") = some .terminal
  | [], _, h, _ => absurd rfl h
  | [(u, k)], net, _, _ => by simp [orderedTermLoop]
  | (u, k) :: (v, k') :: r, net, _, h => by
    simp only [orderedTermLoop]
    exact orderedTermLoop_term name ((v, k') :: r) _ (by simp) (fun hm => h (by simp at hm ⊢; exact Or.inr hm))

theorem orderedTermLoop_chain (name : String) : ∀ (l : List (String × Kind)) (net : Net), (l.map Prod.fst).Nodup →
    name ++ "_TERMINATING" ∉ l.map Prod.fst → (∀ p ∈ l, p.2 ≠ .terminal) →
    Chained (orderedTermLoop name l net) (l.map Prod.fst ++ [name ++ "_TERMINATING"]) ∧
      ∀ p ∈ l, (orderedTermLoop name l net).classes.get? p.1 = some p.2
  | [], _, _, _, _ => ⟨trivial, by simp⟩
  | [(u, k)], net, _, ht, hk => by
    have hu : name ++ "_TERMINATING" ≠ u := fun e => ht (by simp [e])
    have c1 : (orderedTermLoop name [(u, k)] net).classes.get? u = some k := by
      simp only [orderedTermLoop]; rw [Dict.get?_set_ne _ _ hu]; simp
    refine ⟨⟨⟨by simp [orderedTermLoop], ⟨k, c1, hk (u, k) (by simp)⟩, by simp [orderedTermLoop]⟩, trivial⟩, ?_⟩
    intro p hp
    simp at hp
    subst hp
    exact c1
  | (u, k) :: (v, k') :: r, net, hn, ht, hk => by
    have hn' : (((v, k') :: r).map Prod.fst).Nodup := (List.nodup_cons.1 hn).2
    have hu : u ∉ ((v, k') :: r).map Prod.fst := (List.nodup_cons.1 hn).1
    have hut : u ≠ name ++ "_TERMINATING" := fun e => ht (by simp [e])
    obtain ⟨h1, h2⟩ := orderedTermLoop_chain name ((v, k') :: r) ⟨net.classes.set u k, net.links.set u ⟨some v, [v]⟩⟩
      hn' (fun hm => ht (by simp at hm ⊢; exact Or.inr hm)) (fun p hp => hk p (by simp at hp ⊢; exact Or.inr hp))
    obtain ⟨g1, g2⟩ := orderedTermLoop_get name ((v, k') :: r)
      ⟨net.classes.set u k, net.links.set u ⟨some v, [v]⟩⟩ u hu hut
    simp only [orderedTermLoop]
    have cu : (orderedTermLoop name ((v, k') :: r) ⟨net.classes.set u k, net.links.set u ⟨some v, [v]⟩⟩).classes.get? u
        = some k := by rw [g1]; simp
    have cv := h2 (v, k') (by simp)
    refine ⟨⟨⟨by rw [g2]; simp, ⟨k, cu, hk (u, k) (by simp)⟩, by rw [cv]; rfl⟩, h1⟩, ?_⟩
    intro p hp
    rcases List.mem_cons.1 hp with rfl | hp
    · exact cu
    · exact h2 p hp

/-- **C25.** An ordered terminating network executes the given tasks in the given order, each once, then the terminal
task, where it stays; for any list of tasks with different names, of any length. -/
theorem c25_ordered_terminating (name : String) (t : String) (kd : Kind) (r : List (String × Kind))
    (hn : (((t, kd) :: r).map Prod.fst).Nodup) (ht : name ++ "_TERMINATING" ∉ ((t, kd) :: r).map Prod.fst)
    (hk : ∀ p ∈ (t, kd) :: r, p.2 ≠ .terminal) (k : Nat) :
    executed (orderedTerminating name ((t, kd) :: r)) t (r.length + 1 + k) =
      (((t, kd) :: r).map Prod.fst ++ [name ++ "_TERMINATING"]).map Out.started ++ List.replicate k .impossible := by
  obtain ⟨h1, h2⟩ := orderedTermLoop_chain name ((t, kd) :: r) ⟨[], []⟩ hn ht hk
  have h3 := orderedTermLoop_term name ((t, kd) :: r) ⟨[], []⟩ (by simp) ht
  unfold orderedTerminating
  rw [executed_eq _ _ _ (by rw [h2 (t, kd) (by simp)]; rfl)]
  have := follow_chain _ (r.map Prod.fst) (name ++ "_TERMINATING") t h1 k
  rw [List.length_map] at this
  rw [this, follow_terminal _ _ h3]
  simp

example : (([("A", Kind.normal), ("B", .decision), ("C", .normal)] : List (String × Kind)).map Prod.fst).Nodup ∧
    "net" ++ "_TERMINATING" ∉ ([("A", Kind.normal), ("B", .decision), ("C", .normal)] : List (String × Kind)).map
      Prod.fst := by decide

/-- The same task listed twice: its links are overwritten, and the list is cut short. -/
theorem c25_repeated_task_skips :
    executed (orderedTerminating "net" [("A", .normal), ("B", .normal), ("A", .normal), ("C", .normal)]) "A" 3 =
      [.started "A", .started "C", .started "net_TERMINATING", .impossible] := by decide +kernel

theorem orderedLoopLoop_get (first : String) : ∀ (l : List (String × Kind)) (net : Net) (t : String),
    t ∉ l.map Prod.fst →
    (orderedLoopLoop first l net).classes.get? t = net.classes.get? t ∧
    (orderedLoopLoop first l net).links.get? t = net.links.get? t
  | [], net, t, _ => ⟨rfl, rfl⟩
  | [(u, k)], net, t, h => by
    have hu : u ≠ t := fun e => h (by simp [e])
    simp only [orderedLoopLoop]
    rw [Dict.get?_set_ne _ _ hu, Dict.get?_set_ne _ _ hu]
    exact ⟨rfl, rfl⟩
  | (u, k) :: (v, k') :: r, net, t, h => by
    have hu : u ≠ t := fun e => h (by simp [e])
    simp only [orderedLoopLoop]
    obtain ⟨h1, h2⟩ := orderedLoopLoop_get first ((v, k') :: r) ⟨net.classes.set u k, net.links.set u ⟨some v, [v]⟩⟩ t
      (fun hm => h (by simp at hm ⊢; exact Or.inr hm))
    rw [h1, h2]
    simp only
    rw [Dict.get?_set_ne _ _ hu, Dict.get?_set_ne _ _ hu]
    exact ⟨rfl, rfl⟩

theorem orderedLoopLoop_links (first : String) : ∀ (l : List (String × Kind)) (net : Net), (l.map Prod.fst).Nodup →
    (∀ i (h : i < l.length), (orderedLoopLoop first l net).classes.get? l[i].1 = some l[i].2 ∧
      ((orderedLoopLoop first l net).links.get? l[i].1).bind Links.default =
        some (if h' : i + 1 < l.length then l[i + 1].1 else first))
  | [], _, _ => fun i h => by simp at h
  | [(u, k)], net, _ => by
    intro i h
    have : i = 0 := by simpa using h
    subst this
    simp [orderedLoopLoop]
  | (u, k) :: (v, k') :: r, net, hn => by
    have hn' : (((v, k') :: r).map Prod.fst).Nodup := (List.nodup_cons.1 hn).2
    have hu : u ∉ ((v, k') :: r).map Prod.fst := (List.nodup_cons.1 hn).1
    intro i h
    cases i with
    | zero =>
      obtain ⟨g1, g2⟩ := orderedLoopLoop_get first ((v, k') :: r)
        ⟨net.classes.set u k, net.links.set u ⟨some v, [v]⟩⟩ u hu
      simp only [orderedLoopLoop, List.getElem_cons_zero]
      rw [g1, g2]
      simp
    | succ i =>
      have := orderedLoopLoop_links first ((v, k') :: r) ⟨net.classes.set u k, net.links.set u ⟨some v, [v]⟩⟩ hn' i
        (by simpa using h)
      simp only [orderedLoopLoop, List.getElem_cons_succ] at this ⊢
      refine ⟨this.1, ?_⟩
      rw [this.2]
      simp

/-- **C25.** An ordered loop executes the given tasks cyclically: the `j`-th task executed is the one at `j` modulo the
length of the list; for any list of tasks with different names, and any number of steps. -/
theorem c25_ordered_loop (t : String) (kd : Kind) (r : List (String × Kind))
    (hn : (((t, kd) :: r).map Prod.fst).Nodup) (hk : ∀ p ∈ (t, kd) :: r, p.2 ≠ .terminal) (k : Nat) :
    executed (orderedLoop ((t, kd) :: r)) t k =
      (List.range (k + 1)).map (fun j =>
        .started (((t, kd) :: r)[j % (r.length + 1)]'(by simpa using Nat.mod_lt _ (Nat.succ_pos _))).1) := by
  have links := orderedLoopLoop_links t ((t, kd) :: r) ⟨[], []⟩ hn
  unfold orderedLoop
  simp only
  generalize hnet : orderedLoopLoop t ((t, kd) :: r) ⟨[], []⟩ = net at links
  have hlen : ((t, kd) :: r).length = r.length + 1 := rfl
  have go : ∀ k i (hi : i < r.length + 1), follow net k (((t, kd) :: r)[i]'hi).1 =
      (List.range k).map (fun j =>
        .started (((t, kd) :: r)[(i + 1 + j) % (r.length + 1)]'(by simpa using Nat.mod_lt _ (Nat.succ_pos _))).1) := by
    intro k
    induction k with
    | zero => intro i hi; rfl
    | succ k ih =>
      intro i hi
      obtain ⟨h1, h2⟩ := links i hi
      have hnt : (((t, kd) :: r)[i]'hi).2 ≠ .terminal := hk _ (List.getElem_mem _)
      have hnx : (if h' : i + 1 < ((t, kd) :: r).length then ((t, kd) :: r)[i + 1].1 else t) =
          (((t, kd) :: r)[(i + 1) % (r.length + 1)]'(by simpa using Nat.mod_lt _ (Nat.succ_pos _))).1 := by
        split
        · rename_i h'
          have : (i + 1) % (r.length + 1) = i + 1 := Nat.mod_eq_of_lt h'
          simp only [this]
        · rename_i h'
          have : i + 1 = r.length + 1 := by rw [hlen] at h'; omega
          simp only [this, Nat.mod_self, List.getElem_cons_zero]
      rw [hnx] at h2
      have hlt : (i + 1) % (r.length + 1) < r.length + 1 := Nat.mod_lt _ (Nat.succ_pos _)
      obtain ⟨h3, _⟩ := links _ hlt
      unfold follow
      rw [h1, if_neg (by simpa using hnt), h2]
      simp only [h3, Option.isSome_some, if_true]
      rw [ih _ hlt, List.range_succ_eq_map, List.map_cons, List.map_map]
      refine congrArg₂ List.cons ?_ ?_
      · simp
      · refine List.map_congr_left (fun j _ => ?_)
        have : ((i + 1) % (r.length + 1) + 1 + j) % (r.length + 1) = (i + 1 + (j + 1)) % (r.length + 1) := by
          rw [Nat.add_assoc, Nat.add_comm 1 j, Nat.mod_add_mod]
        simp only [Function.comp, this]
  rw [executed_eq _ _ _ (by have := (links 0 (by simp)).1; simp only [List.getElem_cons_zero] at this; rw [this]; rfl)]
  have h0 := go k 0 (by omega)
  simp only [List.getElem_cons_zero] at h0
  rw [h0, List.range_succ_eq_map, List.map_cons, List.map_map]
  refine congrArg₂ List.cons (by simp) ?_
  refine List.map_congr_left (fun j _ => ?_)
  have : (0 + 1 + j) % (r.length + 1) = (j + 1) % (r.length + 1) := by rw [Nat.zero_add, Nat.add_comm]
  simp only [Function.comp, this]

example : executed (orderedLoop [("A", .normal), ("B", .decision), ("C", .normal)]) "A" 4 =
    [.started "A", .started "B", .started "C", .started "A", .started "B"] := by decide +kernel

end Verif.Network
